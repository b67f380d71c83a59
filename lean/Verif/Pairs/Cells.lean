import Verif.Pairs.Props

/-!
# C100: which cells make a pair
-/
namespace Verif.Pairs

/-- The pairs of numbers that stand side by side. -/
def sideBySide (y x : List Cell) : List (Rat × Rat) :=
  (y.zip x).filterMap fun
    | (.num a, .num b) => some (a, b)
    | _ => none

/-- Is the cell a number? -/
def Cell.isNum : Cell → Bool
  | .num _ => true
  | _ => false

theorem numbers_spec : ∀ cs : List Cell, (∀ e, Cell.err e ∉ cs) →
    numbers cs = .ok (cs.filterMap fun
      | .num a => some a
      | _ => none)
  | [], _ => rfl
  | c :: cs, h => by
    have ih := numbers_spec cs fun e he => h e (by simp [he])
    cases c with
    | err e => exact absurd (by simp) (h e)
    | num q => simp only [numbers, ih, List.filterMap_cons]
    | bool b => simp only [numbers, ih, List.filterMap_cons]
    | blank => simp only [numbers, ih, List.filterMap_cons]
    | other => simp only [numbers, ih, List.filterMap_cons]

/-- The first error among the cells of a range is the result of collecting its numbers. -/
theorem numbers_err : ∀ (pre post : List Cell) (e : Err), (∀ e', Cell.err e' ∉ pre) →
    numbers (pre ++ .err e :: post) = .error e
  | [], _, _, _ => rfl
  | c :: pre, post, e, h => by
    have ih := numbers_err pre post e fun e' he => h e' (by simp [he])
    cases c with
    | err e' => exact absurd (by simp) (h e')
    | num q => rw [List.cons_append, numbers, ih]
    | bool b => exact ih
    | blank => exact ih
    | other => exact ih

/-- Errors show: the first error of the known y, or, if they have none, the first of the known x, is the result. -/
theorem pair_errors (pre post : List Cell) (e : Err) (h : ∀ e', Cell.err e' ∉ pre) :
    (∀ x, paired (pre ++ .err e :: post) x = .error e) ∧
    (∀ y, (∀ e', Cell.err e' ∉ y) → paired y (pre ++ .err e :: post) = .error e) := by
  constructor
  · intro x; simp only [paired, numbers_err pre post e h]
  · intro y hy
    simp only [paired, numbers_spec y hy, numbers_err pre post e h]

example : paired [.num 1, .err .na] [.num 2, .err .div] = .error .na ∧
    paired [.num 1, .blank] [.num 2, .err .div] = .error .div := by decide +kernel

theorem sideBySide_lists : ∀ y x : List Cell, y.length = x.length →
    (∀ p ∈ y.zip x, p.1.isNum = p.2.isNum) →
    ((y.filterMap fun | .num a => some a | _ => none).length = (x.filterMap fun | .num a => some a | _ => none).length) ∧
    (y.filterMap fun | .num a => some a | _ => none).zip (x.filterMap fun | .num a => some a | _ => none) = sideBySide y x
  | [], [], _, _ => ⟨rfl, rfl⟩
  | [], _ :: _, h, _ => by simp at h
  | _ :: _, [], h, _ => by simp at h
  | a :: y, b :: x, h, hp => by
    have ih := sideBySide_lists y x (by simpa using h) fun p hp' => hp p (by simp [hp'])
    have h1 := hp (a, b) (by simp)
    cases a <;> cases b <;> simp_all [Cell.isNum, sideBySide]

/-- **Where numbers stand beside numbers, the pairs are those that stand side by side.** -/
theorem aligned (y x : List Cell) (hl : y.length = x.length) (hy : ∀ e, Cell.err e ∉ y) (hx : ∀ e, Cell.err e ∉ x)
    (hp : ∀ p ∈ y.zip x, p.1.isNum = p.2.isNum) (hne : sideBySide y x ≠ []) :
    ∃ ys xs, paired y x = .ok (ys, xs) ∧ ys.length = xs.length ∧ ys.zip xs = sideBySide y x := by
  obtain ⟨h1, h2⟩ := sideBySide_lists y x hl hp
  refine ⟨_, _, ?_, h1, h2⟩
  simp only [paired, numbers_spec y hy, numbers_spec x hx]
  rw [if_neg (by simp [h1]), if_neg]
  intro h
  rw [← h2, h] at hne
  simp at hne

/-- **Refuted: the pairs are those that stand side by side.**  A text in one list and a text in another row of the
other leave as many numbers in both, which are then paired across rows: here the slope is 3, though the two pairs of
numbers that stand side by side lie on a line of slope 4. -/
theorem pairs_refuted : ¬ ∀ y x : List Cell, y.length = x.length → (∀ e, Cell.err e ∉ y) → (∀ e, Cell.err e ∉ x) →
    ∀ m, onPairs slope y x = .ok m → slope ((sideBySide y x).map (·.1)) ((sideBySide y x).map (·.2)) = .ok m := by
  intro h
  have := h [.num 1, .other, .num 3, .num 7] [.blank, .num 2, .num 3, .num 4] rfl (by simp) (by simp) 3
    (by decide +kernel)
  revert this
  decide +kernel

/-- **Refuted: lists of equal length have pairs.**  One blank among the y is `#N/A`. -/
theorem length_refuted : ¬ ∀ y x : List Cell, y.length = x.length → (∀ e, Cell.err e ∉ y) → (∀ e, Cell.err e ∉ x) →
    sideBySide y x ≠ [] → ∃ ys xs, paired y x = .ok (ys, xs) := by
  intro h
  obtain ⟨ys, xs, hh⟩ := h [.num 1, .blank, .num 3] [.num 1, .num 2, .num 3] rfl (by simp) (by simp) (by decide)
  have : paired [.num 1, .blank, .num 3] [.num 1, .num 2, .num 3] = .error .na := by decide +kernel
  rw [this] at hh
  cases hh

/-- **Refuted: FORECAST shows the error of its first argument.** -/
theorem forecast_error_lost (e : Err) (y x : List Cell) : forecast (.error e) y x = .error .value := rfl

/-- **Refuted: R² of LINEST lies between 0 and 1 without a constant too.**  The distances from the mean are compared
with those from a line through the origin, which may be worse than the mean. -/
theorem linest_r2_refuted : ¬ ∀ (y x : List Rat) (m b : Rat), y.length = x.length → line false y x = .ok (m, b) →
    0 ≤ linestR2 y x m b := by
  intro h
  have := h [10, 10, 11] [1, 2, 3] (9 / 2) 0 rfl (by decide +kernel)
  revert this
  decide +kernel

/-- **LINEST's standard error is STEYX** from three points on. -/
theorem linest_se (y x : List Rat) (hl : y.length = x.length) (hn : 3 ≤ x.length) (m b : Rat)
    (h : line true y x = .ok (m, b)) : steyx y x = .ok (linestSe true y x m b) := by
  obtain ⟨hm, hb⟩ := ((line_spec y x hl).1 m b).1 h
  unfold slope at hm
  unfold intercept at hb
  by_cases h2 : sum2 x = 0
  · rw [if_pos h2] at hm; cases hm
  rw [if_neg h2] at hm hb
  injection hm with hm
  injection hb with hb
  subst hm
  subst hb
  have hx : x ≠ [] := by rintro rfl; simp at hn
  have hr : ssResid y x (sumXY y x / sum2 x) (mean y - sumXY y x / sum2 x * mean x) =
      sum2 y - sumXY y x * sumXY y x / sum2 x := by
    rw [resid_best y x hl hx h2]; ring
  have h0 := resid_nonneg y x (sumXY y x / sum2 x) (mean y - sumXY y x / sum2 x * mean x)
  have hdf : (linestDf true x.length : Rat) = (x.length : Rat) - 2 := by
    have : linestDf true x.length = (x.length : Int) - 2 := by unfold linestDf; simp only [if_true]; omega
    rw [this]; push_cast; ring
  unfold steyx linestSe
  rw [hr] at h0 ⊢
  rw [if_neg (by omega), if_neg h2, if_neg (by linarith), hdf]

/-- **Refuted: the degrees of freedom are `n - 2`** (`n - 1` without a constant): with as many points as
coefficients LINEST gives 1, where STEYX gives `#DIV/0!`. -/
theorem linest_df (c : Bool) (n : Nat) :
    (linestDf c n = (n : Int) - (if c then 2 else 1) ↔ (if c then 3 else 2) ≤ n) ∧
    (n ≤ (if c then 2 else 1) → linestDf c n = 1) := by
  unfold linestDf
  cases c <;> simp only [Bool.false_eq_true, if_true, if_false] <;> constructor <;> omega

/-- **Refuted: TREND and LINEST use the same known x.**  A range whose first cell is blank is taken by TREND for an
argument left out, and 1, 2, 3, … stand for its numbers. -/
theorem trend_blank (n : Nat) (x : List Cell) :
    trendX n (.blank :: x) = .ok (defaultX n) ∧ linestX (.blank :: x) = numbers x := ⟨rfl, rfl⟩

theorem trend_linest_refuted : ¬ ∀ (y x : List Cell) (ys xs xs' : List Rat), numbers y = .ok ys →
    linestX x = .ok xs → trendX ys.length x = .ok xs' → line true ys xs = line true ys xs' := by
  intro h
  have := h [.other, .num 1, .num 2, .num 4] [.blank, .num 10, .num 20, .num 40] [1, 2, 4] [10, 20, 40] [1, 2, 3]
    (by decide +kernel) (by decide +kernel) (by decide +kernel)
  revert this
  decide +kernel

/-- **TREND gives one row whatever the shape of the new x**: a column of new x spills to the right. -/
theorem trend_row (c : Bool) (y x new : List Rat) (r : List (List Rat)) (h : trend c y x new = .ok r) :
    r.length = 1 ∧ ∀ row ∈ r, row.length = new.length := by
  unfold trend at h
  split at h
  · cases h
  split at h
  · cases h
  split at h
  · cases h
  split at h
  · cases h
  · injection h with h
    subst h
    simp

theorem defaultX_spec (n i : Nat) (h : i < n) : (defaultX n)[i]? = some ((i : Rat) + 1) := by
  unfold defaultX
  rw [List.getElem?_map, List.getElem?_range h]
  rfl

/-! ### SUMX2MY2 and its kin -/

theorem nums0_nums (l : List Rat) : nums0 (l.map .num) = .ok l := by
  induction l with
  | nil => rfl
  | cons a l ih => simp only [List.map_cons, nums0, ih]

/-- **SUMX2MY2 is the sum of the squares of x less that of y, SUMX2PY2 the sum of both, and SUMXMY2 is SUMX2PY2 less
twice the sum of the products.** -/
theorem sumx_spec (x y : List Rat) (h : x.length = y.length) :
    sumx2my2 (x.map .num) (y.map .num) = .ok ((x.map (· ^ 2)).sum - (y.map (· ^ 2)).sum) ∧
    sumx2py2 (x.map .num) (y.map .num) = .ok ((x.map (· ^ 2)).sum + (y.map (· ^ 2)).sum) ∧
    sumxmy2 (x.map .num) (y.map .num) =
      .ok ((x.map (· ^ 2)).sum + (y.map (· ^ 2)).sum - 2 * ((x.zip y).map fun p => p.1 * p.2).sum) := by
  simp only [sumx2my2, sumx2py2, sumxmy2, sumPairs, nums0_nums]
  rw [if_neg (by simp [h]), if_neg (by simp [h]), if_neg (by simp [h])]
  have : ∀ x y : List Rat, x.length = y.length →
      ((x.zip y).map fun p => p.1 * p.1 - p.2 * p.2).sum = (x.map (· ^ 2)).sum - (y.map (· ^ 2)).sum ∧
      ((x.zip y).map fun p => p.1 * p.1 + p.2 * p.2).sum = (x.map (· ^ 2)).sum + (y.map (· ^ 2)).sum ∧
      ((x.zip y).map fun p => (p.1 - p.2) ^ 2).sum =
        (x.map (· ^ 2)).sum + (y.map (· ^ 2)).sum - 2 * ((x.zip y).map fun p => p.1 * p.2).sum := by
    intro x
    induction x with
    | nil => intro y hy; cases y with
      | nil => simp
      | cons _ _ => simp at hy
    | cons a x ih => intro y hy; cases y with
      | nil => simp at hy
      | cons b y =>
        obtain ⟨h1, h2, h3⟩ := ih y (by simpa using hy)
        simp only [List.zip_cons_cons, List.map_cons, List.sum_cons, h1, h2, h3]
        refine ⟨by ring, by ring, by ring⟩
  obtain ⟨h1, h2, h3⟩ := this x y h
  rw [h1, h2, h3]
  exact ⟨rfl, rfl, rfl⟩

/-- **SUMXMY2 is 0 exactly for equal lists**, and never negative. -/
theorem sumxmy2_zero (x y : List Rat) (h : x.length = y.length) :
    ∃ s, sumxmy2 (x.map .num) (y.map .num) = .ok s ∧ 0 ≤ s ∧ (s = 0 ↔ x = y) := by
  simp only [sumxmy2, sumPairs, nums0_nums]
  rw [if_neg (by simp [h])]
  refine ⟨_, rfl, ?_⟩
  induction x generalizing y with
  | nil => cases y with
    | nil => simp
    | cons _ _ => simp at h
  | cons a x ih => cases y with
    | nil => simp at h
    | cons b y =>
      obtain ⟨h1, h2⟩ := ih y (by simpa using h)
      simp only [List.zip_cons_cons, List.map_cons, List.sum_cons, List.cons.injEq, ← h2]
      have h3 := sq_nonneg (a - b)
      refine ⟨by linarith, fun hh => ?_, ?_⟩
      · have : (a - b) ^ 2 = 0 := by linarith
        have := pow_eq_zero_iff (two_ne_zero) |>.1 this
        exact ⟨by linarith, by linarith⟩
      · rintro ⟨rfl, h4⟩
        rw [h4]; ring

/-- **Refuted: a pair with a cell that is no number is left out**, as CORREL and its kin leave out such cells: here it
counts as 0. -/
theorem sumx_refuted : ¬ ∀ x y : List Cell, x.length = y.length → (∀ e, Cell.err e ∉ x) → (∀ e, Cell.err e ∉ y) →
    sumx2my2 x y = .ok ((sideBySide x y).map fun p => p.1 ^ 2 - p.2 ^ 2).sum := by
  intro h
  have := h [.other, .num 3] [.num 2, .num 1] rfl (by simp) (by simp)
  revert this
  decide +kernel

example : slope [2, 4, 7] [1, 2, 3] = .ok (5 / 2) ∧ intercept [2, 4, 7] [1, 2, 3] = .ok (-2 / 3) := by decide +kernel

example : rsq [2, 4, 6] [1, 2, 3] = .ok 1 := by decide +kernel

example : covP [1, 3, 5] [2, 4, 6] = .ok (8 / 3) ∧ covS [1, 3, 5] [2, 4, 6] = .ok 4 := by decide +kernel

example : forecast (.ok 4) [.num 2, .other, .num 4] [.num 1, .blank, .num 2] = .ok 8 := by decide +kernel

example : trend true [2, 4, 6] [1, 2, 3] [4, 5] = .ok [[8, 10]] := by decide +kernel

example : ∃ a ∈ ([1, 2, 3] : List Rat), a ≠ mean [1, 2, 3] := ⟨1, by decide, by decide +kernel⟩

example : (∀ p ∈ ([Cell.num 1, .other]).zip [Cell.num 5, .blank], p.1.isNum = p.2.isNum) ∧
    sideBySide [.num 1, .other] [.num 5, .blank] = [(1, 5)] := by decide +kernel

example : sumx2my2 [.num 2, .num 3] [.num 1, .num 4] = .ok (-4) := by decide +kernel

/-- Specification: what a cell counts in the SUMX functions. -/
def worth : Cell → Rat
  | .num q => q
  | .bool true => 1
  | _ => 0

theorem nums0_spec : ∀ cs : List Cell, (∀ e, Cell.err e ∉ cs) → nums0 cs = .ok (cs.map worth)
  | [], _ => rfl
  | c :: cs, h => by
    have ih := nums0_spec cs fun e he => h e (by simp [he])
    cases c with
    | err e => exact absurd (by simp) (h e)
    | num q => simp only [nums0, ih, List.map_cons, worth]
    | bool b => cases b <;> simp [nums0, ih, worth]
    | blank => simp only [nums0, ih, List.map_cons, worth]
    | other => simp only [nums0, ih, List.map_cons, worth]

theorem nums0_err : ∀ (pre post : List Cell) (e : Err), (∀ e', Cell.err e' ∉ pre) →
    nums0 (pre ++ .err e :: post) = .error e
  | [], _, _, _ => rfl
  | c :: pre, post, e, h => by
    have ih := nums0_err pre post e fun e' he => h e' (by simp [he])
    cases c with
    | err e' => exact absurd (by simp) (h e')
    | num q => simp only [List.cons_append, nums0, ih]
    | bool b => simp only [List.cons_append, nums0, ih]
    | blank => simp only [List.cons_append, nums0, ih]
    | other => simp only [List.cons_append, nums0, ih]

/-- **The SUMX functions go cell by cell**: without errors, lists of different length give `#N/A`, others the sum over the
cells side by side, where TRUE counts 1 and what is no number 0; the first error of x, else that of y, is the result. -/
theorem sumx_cells (f : Rat → Rat → Rat) (x y : List Cell) :
    ((∀ e, Cell.err e ∉ x) → (∀ e, Cell.err e ∉ y) → x.length ≠ y.length → sumPairs f x y = .error .na) ∧
    ((∀ e, Cell.err e ∉ x) → (∀ e, Cell.err e ∉ y) → x.length = y.length →
      sumPairs f x y = .ok ((x.zip y).map fun p => f (worth p.1) (worth p.2)).sum) ∧
    (∀ pre post e, (∀ e', Cell.err e' ∉ pre) → x = pre ++ .err e :: post → sumPairs f x y = .error e) ∧
    (∀ pre post e, (∀ e', Cell.err e' ∉ pre) → (∀ e, Cell.err e ∉ x) → y = pre ++ .err e :: post →
      sumPairs f x y = .error e) := by
  refine ⟨?_, ?_, ?_, ?_⟩
  · intro hx hy hl
    simp only [sumPairs, nums0_spec x hx, nums0_spec y hy]
    rw [if_pos (by simpa using hl)]
  · intro hx hy hl
    simp only [sumPairs, nums0_spec x hx, nums0_spec y hy]
    rw [if_neg (by simpa using hl), List.zip_map, List.map_map]
    rfl
  · rintro pre post e h rfl
    simp only [sumPairs, nums0_err pre post e h]
  · rintro pre post e h hx rfl
    simp only [sumPairs, nums0_spec x hx, nums0_err pre post e h]

example : sumx2my2 [.num 2, .bool true, .blank] [.num 1, .num 3, .num 1] = .ok (-6) := by decide +kernel

end Verif.Pairs

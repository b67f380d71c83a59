import Verif.Order.Rank

/-!
# TRIMMEAN, PERCENTRANK, FREQUENCY and the numbers collected
-/

namespace Verif.Order

/-! ## TRIMMEAN -/

theorem trim_bound {n : Nat} {p : ℚ} (hn : 0 < n) (h0 : 0 ≤ p) (h1 : p < 1) : 2 * ⌊(n * p) / 2⌋₊ < n := by
  have hq : (0 : ℚ) < n := by exact_mod_cast hn
  have := Nat.floor_le (a := (n * p) / 2) (by positivity)
  have h2 : (n : ℚ) * p < n := by nlinarith
  have h3 : ((2 * ⌊(n * p) / 2⌋₊ : ℕ) : ℚ) < n := by push_cast; linarith
  exact_mod_cast h3

/-- C86.  TRIMMEAN is the mean of what is left without as many of the smallest as of the largest numbers. -/
theorem trimmean_spec (nums : List ℚ) (percent : ℚ) (hne : nums ≠ []) (h0 : 0 ≤ percent) (h1 : percent < 1) :
    ∃ low mid high : List ℚ, (low ++ mid ++ high).Perm nums ∧ low.length = ⌊nums.length * percent / 2⌋₊ ∧ high.length = low.length ∧ mid ≠ [] ∧ (∀ a ∈ low, ∀ b ∈ mid, a ≤ b) ∧ (∀ b ∈ mid, ∀ c ∈ high, b ≤ c) ∧
      trimmean nums percent = .val (mid.sum / mid.length) := by
  have hpos : 0 < nums.length := List.length_pos_iff.mpr hne
  have hb := trim_bound hpos h0 h1
  have hlen := ascending_length nums
  have hs := ascending_sorted nums
  generalize hk : ⌊(nums.length * percent) / 2⌋₊ = k at hb
  have e1 : (ascending nums).take (nums.length - k) = (ascending nums).take k ++ ((ascending nums).take (nums.length - k)).drop k := by
    conv_lhs => rw [← List.take_append_drop k ((ascending nums).take (nums.length - k))]
    rw [List.take_take, Nat.min_eq_left (by omega)]
  have e2 : ascending nums = (ascending nums).take k ++ ((ascending nums).take (nums.length - k)).drop k ++ (ascending nums).drop (nums.length - k) := by
    rw [← e1, List.take_append_drop]
  refine ⟨(ascending nums).take k, ((ascending nums).take (nums.length - k)).drop k, (ascending nums).drop (nums.length - k), ?_, ?_, ?_, ?_, ?_, ?_, ?_⟩
  · rw [← e2]; exact ascending_perm nums
  · rw [List.length_take, hlen, Nat.min_eq_left (by omega)]
  · rw [List.length_drop, List.length_take, hlen, Nat.min_eq_left (by omega)]; omega
  · intro hnil
    have := congrArg List.length hnil
    rw [List.length_drop, List.length_take, hlen, Nat.min_eq_left (by omega)] at this
    simp at this
    omega
  · rw [e2] at hs
    intro a ha b hb
    exact (List.pairwise_append.mp (List.pairwise_append.mp hs).1).2.2 a ha b hb
  · rw [e2] at hs
    intro b hb c hc
    exact (List.pairwise_append.mp hs).2.2 b (List.mem_append_right _ hb) c hc
  · unfold trimmean
    rw [if_neg hne, if_neg (by simp; exact ⟨h0, h1⟩)]
    simp only [hk]
    rw [if_neg (by omega)]

/-- C86.  With nothing to trim it is the average, and the order of the numbers does not matter. -/
theorem trimmean_zero (nums : List ℚ) (hne : nums ≠ []) : trimmean nums 0 = .val (nums.sum / nums.length) := by
  obtain ⟨low, mid, high, hp, hl, hh, _, _, _, h⟩ := trimmean_spec nums 0 hne (le_refl _) (by norm_num)
  simp only [mul_zero, zero_div, Nat.floor_zero] at hl
  rw [hl] at hh
  rw [List.length_eq_zero_iff] at hl hh
  rw [hl, hh, List.nil_append, List.append_nil] at hp
  rw [h, hp.sum_eq, hp.length_eq]

theorem ascending_congr {l l' : List ℚ} (h : l.Perm l') : ascending l = ascending l' := by
  apply List.ext_getElem
  · rw [ascending_length, ascending_length, h.length_eq]
  · intro i h1 h2
    have := nth_perm h i
    simpa [nth, List.getD_eq_getElem?_getD, List.getElem?_eq_getElem h1, List.getElem?_eq_getElem h2] using this

/-- C86.  TRIMMEAN, MODE, PERCENTRANK and the bins of FREQUENCY do not depend on the order of the cells. -/
theorem laws_perm {nums nums' : List ℚ} (h : nums.Perm nums') (x : ℚ) (data : List ℚ) :
    trimmean nums x = trimmean nums' x ∧ modeMult nums = modeMult nums' ∧ modeSingle nums = modeSingle nums' ∧ percentrankIncRaw nums x = percentrankIncRaw nums' x ∧ percentrankExcRaw nums x = percentrankExcRaw nums' x ∧
    frequency data nums = frequency data nums' := by
  have hl := h.length_eq
  have hne : nums = [] ↔ nums' = [] := by rw [← List.length_eq_zero_iff, ← List.length_eq_zero_iff, hl]
  refine ⟨?_, ?_, ?_, ?_, ?_, ?_⟩
  · simp only [trimmean, hl, ascending_congr h, hne]
  · simp only [modeMult, ascending_congr h]
  · simp only [modeSingle, ascending_congr h]
  · simp only [percentrankIncRaw, hl, ascending_congr h]
  · simp only [percentrankExcRaw, hl, ascending_congr h]
  · simp only [frequency, hl, ascending_congr h, hne]

/-! ## PERCENTRANK -/

/-- `x` is at place `j + f` of the list: at place `j` up to the tolerance, or between two places. -/
def At (x : ℚ) (l : List ℚ) (j : Nat) (f : ℚ) : Prop :=
  (f = 0 ∧ j < l.length ∧ |l.getD j 0 - x| < eps) ∨ (0 ≤ f ∧ f < 1 ∧ j + 1 < l.length ∧ l.getD j 0 + (l.getD (j + 1) 0 - l.getD j 0) * f = x)

theorem At.cons {x : ℚ} {l : List ℚ} {j : Nat} {f : ℚ} (h : At x l j f) (a : ℚ) : At x (a :: l) (j + 1) f := by
  rcases h with ⟨h1, h2, h3⟩ | ⟨h1, h2, h3, h4⟩
  · exact .inl ⟨h1, by simpa using h2, by simpa using h3⟩
  · exact .inr ⟨h1, h2, by simpa using h3, by simpa using h4⟩

theorem near_abs {x a : ℚ} : near x a = true ↔ |a - x| < eps := by simp [near]

theorem between_at {x a b : ℚ} {rest : List ℚ} (h1 : a < x) (h2 : x < b) : At x (a :: b :: rest) 0 ((x - a) / (b - a)) := by
  have hd : 0 < b - a := by linarith
  refine .inr ⟨div_nonneg (by linarith) hd.le, ?_, by simp, ?_⟩
  · rw [div_lt_one hd]; linarith
  · simp only [List.getD_cons_zero, List.getD_cons_succ]
    rw [mul_div_cancel₀ _ hd.ne']
    ring

theorem not_near_lt {x a : ℚ} (h : ¬near x a = true) (hle : a ≤ x) : a < x := by
  refine lt_of_le_of_ne hle ?_
  rintro rfl
  exact h (near_abs.mpr (by simpa using eps_pos))

theorem rankIncLoop_at (x : ℚ) (n : Nat) (l : List ℚ) : ∀ i, i + l.length = n → 2 ≤ l.length → l.headD 0 ≤ x → x ≤ l.getLastD 0 → ∃ j f, rankIncLoop x n i l = (((i + j : Nat) : ℚ) + f) / ((n : ℚ) - 1) ∧ At x l j f := by
  induction l with
  | nil => intro i _ h; simp at h
  | cons a l ih =>
    intro i hn h2 hh hl
    cases l with
    | nil => simp at h2
    | cons b rest =>
      simp only [List.headD_cons] at hh
      rw [rankIncLoop]
      by_cases hna : near x a = true
      · rw [if_pos hna]
        exact ⟨0, 0, by simp, .inl ⟨rfl, by simp, by simpa using near_abs.mp hna⟩⟩
      · rw [if_neg hna]
        have hax := not_near_lt hna hh
        by_cases hb : a < x ∧ x < b
        · rw [if_pos hb]
          exact ⟨0, _, by simp, between_at hb.1 hb.2⟩
        · rw [if_neg hb]
          have hbx : b ≤ x := by
            by_contra hc
            exact hb ⟨hax, by linarith⟩
          by_cases hr : rest = []
          · subst hr
            rw [if_pos rfl]
            simp only [List.getLastD_cons, List.getLastD_nil] at hl
            have hxb : x = b := le_antisymm (by simpa using hl) hbx
            have hnb : near x b = true := near_abs.mpr (by rw [hxb]; simpa using eps_pos)
            rw [if_pos hnb]
            refine ⟨1, 0, ?_, .inl ⟨rfl, by simp, by simpa using near_abs.mp hnb⟩⟩
            have hn' : n = i + 2 := by simp at hn; omega
            have hp : (0 : ℚ) ≤ i := Nat.cast_nonneg _
            rw [hn', eq_div_iff (by push_cast; linarith)]
            push_cast
            ring
          · rw [if_neg hr]
            obtain ⟨j, f, hj, hat⟩ := ih (i + 1) (by simp at hn ⊢; omega) (by cases rest with | nil => exact absurd rfl hr | cons c cs => simp) (by simpa using hbx) (by simpa using hl)
            exact ⟨j + 1, f, by rw [hj]; congr 2; push_cast; ring, hat.cons a⟩

theorem rankExcLoop_at (x : ℚ) (n : Nat) (l : List ℚ) : ∀ i, l ≠ [] → l.headD 0 ≤ x → x ≤ l.getLastD 0 → ∃ j f, rankExcLoop x n i l = (((i + j : Nat) : ℚ) + 1 + f) / ((n : ℚ) + 1) ∧ At x l j f := by
  induction l with
  | nil => intro i h; exact absurd rfl h
  | cons a l ih =>
    intro i _ hh hl
    cases l with
    | nil =>
      simp at hh hl
      have hna : near x a = true := near_abs.mpr (by rw [le_antisymm hl hh]; simpa using eps_pos)
      rw [rankExcLoop, if_pos hna]
      exact ⟨0, 0, by simp, .inl ⟨rfl, by simp, by simpa using near_abs.mp hna⟩⟩
    | cons b rest =>
      simp only [List.headD_cons] at hh
      rw [rankExcLoop]
      by_cases hna : near x a = true
      · rw [if_pos hna]
        exact ⟨0, 0, by simp, .inl ⟨rfl, by simp, by simpa using near_abs.mp hna⟩⟩
      · rw [if_neg hna]
        have hax := not_near_lt hna hh
        by_cases hb : a < x ∧ x < b
        · rw [if_pos hb]
          exact ⟨0, _, by simp, between_at hb.1 hb.2⟩
        · rw [if_neg hb]
          have hbx : b ≤ x := by
            by_contra hc
            exact hb ⟨hax, by linarith⟩
          obtain ⟨j, f, hj, hat⟩ := ih (i + 1) (by simp) (by simpa using hbx) (by simpa using hl)
          exact ⟨j + 1, f, by rw [hj]; congr 2; push_cast; ring, hat.cons a⟩

theorem at_interp {x f : ℚ} {nums : List ℚ} {j : Nat} (h : At x (ascending nums) j f) : 0 ≤ f ∧ (j : ℚ) + f ≤ nums.length - 1 ∧ |interp nums (j + f) - x| < eps := by
  rcases h with ⟨h1, h2, h3⟩ | ⟨h1, h2, h3, h4⟩
  · rw [ascending_length] at h2
    subst h1
    refine ⟨le_refl _, ?_, ?_⟩
    · have : (j : ℚ) + 1 ≤ nums.length := by exact_mod_cast h2
      linarith
    · rw [add_zero, interp_nat]; exact h3
  · rw [ascending_length] at h3
    refine ⟨h1, ?_, ?_⟩
    · have : (j : ℚ) + 1 + 1 ≤ nums.length := by exact_mod_cast h3
      linarith
    · rw [interp_add nums j h1 h2]
      have : nth nums j + (nth nums (j + 1) - nth nums j) * f = x := h4
      rw [this, sub_self, abs_zero]
      exact eps_pos

theorem ends (nums : List ℚ) (hne : nums ≠ []) : (ascending nums).headD 0 = nth nums 0 ∧ (ascending nums).getLastD 0 = nth nums (nums.length - 1) := by
  have hlen := ascending_length nums
  unfold nth
  rw [← hlen]
  have hne' : ascending nums ≠ [] := by
    intro h
    rw [h] at hlen
    exact hne (List.length_eq_zero_iff.mp hlen.symm)
  revert hne'
  generalize ascending nums = s
  intro hne'
  constructor
  · cases s with
    | nil => exact absurd rfl hne'
    | cons a l => rfl
  · rw [List.getLastD_eq_getLast?, List.getLast?_eq_getElem?, List.getD_eq_getElem?_getD]

/-- C86.  PERCENTRANK.INC: outside the numbers there is none. -/
theorem percentrank_outside (nums : List ℚ) (x : ℚ) (hne : nums ≠ []) :
    (percentrankIncRaw nums x = none ↔ (∀ y ∈ nums, x < y) ∨ ∀ y ∈ nums, y < x) ∧ (percentrankExcRaw nums x = none ↔ (∀ y ∈ nums, x < y) ∨ ∀ y ∈ nums, y < x) := by
  obtain ⟨e1, e2⟩ := ends nums hne
  have hpos : 0 < nums.length := List.length_pos_iff.mpr hne
  have hiff : (x < nth nums 0 ∨ x > nth nums (nums.length - 1)) ↔ (∀ y ∈ nums, x < y) ∨ ∀ y ∈ nums, y < x := by
    constructor
    · rintro (h | h)
      · exact .inl fun y hy => lt_of_lt_of_le h (nth_first hy)
      · exact .inr fun y hy => lt_of_le_of_lt (nth_last hy) h
    · rintro (h | h)
      · exact .inl (h _ (nth_mem hpos))
      · exact .inr (h _ (nth_mem (by omega)))
  rw [← hiff]
  constructor
  · unfold percentrankIncRaw
    simp only [e1, e2]
    by_cases h : x < nth nums 0 ∨ x > nth nums (nums.length - 1)
    · simp [h]
    · rw [if_neg h]
      simp only [h, iff_false]
      split <;> simp
  · unfold percentrankExcRaw
    simp only [e1, e2]
    by_cases h : x < nth nums 0 ∨ x > nth nums (nums.length - 1)
    · simp [h]
    · rw [if_neg h]
      simp only [h, iff_false]
      simp

/-- C86.  PERCENTILE.INC takes the rank given by PERCENTRANK.INC back to the number, up to the tolerance. -/
theorem percentrank_inc_inverse (sel : Select) (nums : List ℚ) (x r : ℚ) (hne : nums ≠ []) (h : percentrankIncRaw nums x = some r) :
    0 ≤ r ∧ r ≤ 1 ∧ ∃ y, percentileInc sel nums r = .val y ∧ |y - x| < eps := by
  obtain ⟨e1, e2⟩ := ends nums hne
  have hpos : 0 < nums.length := List.length_pos_iff.mpr hne
  unfold percentrankIncRaw at h
  simp only at h
  by_cases ho : x < (ascending nums).headD 0 ∨ x > (ascending nums).getLastD 0
  · rw [if_pos ho] at h; cases h
  · rw [if_neg ho] at h
    rw [not_or] at ho
    obtain ⟨h1, h2⟩ := ho
    by_cases hn : nums.length = 1
    · rw [if_pos hn] at h
      cases h
      refine ⟨le_refl _, by norm_num, nth nums 0, ?_, ?_⟩
      · rw [percentileInc_eq sel hne (le_refl _) (by norm_num), zero_mul]
        have := interp_nat nums 0
        rw [← this]
        simp
      · rw [e1] at h1
        rw [e2, hn] at h2
        have : x = nth nums 0 := le_antisymm (by simpa using h2) (by simpa using h1)
        rw [this, sub_self, abs_zero]
        exact eps_pos
    · rw [if_neg hn] at h
      cases h
      obtain ⟨j, f, hj, hat⟩ := rankIncLoop_at x nums.length (ascending nums) 0 (by rw [ascending_length]; omega) (by rw [ascending_length]; omega) (by simpa using h1) (by simpa using h2)
      obtain ⟨a1, a2, a3⟩ := at_interp hat
      rw [Nat.zero_add] at hj
      have hn1 : (0 : ℚ) < (nums.length : ℚ) - 1 := by
        have : (2 : ℚ) ≤ nums.length := by exact_mod_cast (by omega : 2 ≤ nums.length)
        linarith
      have hj0 : (0 : ℚ) ≤ j := Nat.cast_nonneg _
      have r0 : 0 ≤ ((j : ℚ) + f) / (nums.length - 1) := div_nonneg (by linarith) hn1.le
      have r1 : ((j : ℚ) + f) / (nums.length - 1) ≤ 1 := (div_le_one hn1).mpr a2
      rw [hj]
      refine ⟨r0, r1, _, percentileInc_eq sel hne r0 r1, ?_⟩
      rw [div_mul_cancel₀ _ hn1.ne']
      exact a3

/-- C86.  The same for PERCENTRANK.EXC. -/
theorem percentrank_exc_inverse (sel : Select) (nums : List ℚ) (x r : ℚ) (hne : nums ≠ []) (h : percentrankExcRaw nums x = some r) :
    0 < r ∧ r < 1 ∧ ∃ y, percentileExc sel nums r = .val y ∧ |y - x| < eps := by
  have hpos : 0 < nums.length := List.length_pos_iff.mpr hne
  unfold percentrankExcRaw at h
  simp only at h
  by_cases ho : x < (ascending nums).headD 0 ∨ x > (ascending nums).getLastD 0
  · rw [if_pos ho] at h; cases h
  · rw [if_neg ho] at h
    rw [not_or] at ho
    obtain ⟨h1, h2⟩ := ho
    cases h
    have hne' : ascending nums ≠ [] := by
      intro hc
      have := ascending_length nums
      rw [hc] at this
      simp at this
      omega
    obtain ⟨j, f, hj, hat⟩ := rankExcLoop_at x nums.length (ascending nums) 0 hne' (by simpa using h1) (by simpa using h2)
    obtain ⟨a1, a2, a3⟩ := at_interp hat
    rw [Nat.zero_add] at hj
    have hn0 : (0 : ℚ) ≤ nums.length := Nat.cast_nonneg _
    have hn1 : (0 : ℚ) < (nums.length : ℚ) + 1 := by linarith
    have hj0 : (0 : ℚ) ≤ j := Nat.cast_nonneg _
    have hcancel : ((j : ℚ) + 1 + f) / (nums.length + 1) * ((nums.length : ℚ) + 1) = (j : ℚ) + 1 + f := div_mul_cancel₀ _ hn1.ne'
    rw [hj]
    refine ⟨div_pos (by linarith) hn1, (div_lt_one hn1).mpr (by linarith), _, percentileExc_eq sel (by rw [hcancel]; linarith) (by rw [hcancel]; linarith), ?_⟩
    rw [hcancel, show (j : ℚ) + 1 + f - 1 = j + f by ring]
    exact a3

/-- C86.  The rank shown is cut to the digits asked for. -/
theorem percentrank_cut (raw : List ℚ → ℚ → Option ℚ) (nums : List ℚ) (x r : ℚ) (significance : Nat) (hne : nums ≠ []) (h : raw nums x = some r) :
    ∃ c : ℚ, percentrank raw nums x significance = .val c ∧ c ≤ r ∧ r < c + 1 / 10 ^ significance ∧ ∃ m : ℤ, c * 10 ^ significance = m := by
  have hp : (0 : ℚ) < 10 ^ significance := by positivity
  refine ⟨⌊r * 10 ^ significance⌋ / 10 ^ significance, ?_, ?_, ?_, ⌊r * 10 ^ significance⌋, div_mul_cancel₀ _ hp.ne'⟩
  · unfold percentrank
    rw [if_neg hne, h]
  · rw [div_le_iff₀ hp]
    exact Int.floor_le _
  · rw [← add_div, lt_div_iff₀ hp]
    exact Int.lt_floor_add_one _

/-! ## FREQUENCY -/

theorem foldl_modify (f : ℚ → Nat) (data : List ℚ) : ∀ (fs : List Nat) (i : Nat), (data.foldl (fun fs v => fs.modify (f v) (· + 1)) fs)[i]? = fs[i]?.map (· + data.countP (fun v => f v == i)) := by
  induction data with
  | nil => intro fs i; simp
  | cons v vs ih =>
    intro fs i
    rw [List.foldl_cons, ih, List.getElem?_modify, List.countP_cons]
    cases fs[i]? with
    | none => simp
    | some c =>
      by_cases h : f v = i
      · simp [h]; omega
      · simp [h]

theorem foldl_length (f : ℚ → Nat) (data : List ℚ) : ∀ fs : List Nat, (data.foldl (fun fs v => fs.modify (f v) (· + 1)) fs).length = fs.length := by
  induction data with
  | nil => intro fs; rfl
  | cons v vs ih => intro fs; rw [List.foldl_cons, ih, List.length_modify]

theorem modify_sum (fs : List Nat) : ∀ i, i < fs.length → (fs.modify i (· + 1)).sum = fs.sum + 1 := by
  induction fs with
  | nil => intro i h; simp at h
  | cons a l ih =>
    intro i h
    cases i with
    | zero => simp [List.modify_cons]; omega
    | succ i => simp [List.modify_cons]; rw [ih i (by simpa using h)]; omega

theorem foldl_sum (f : ℚ → Nat) (data : List ℚ) : ∀ fs : List Nat, (∀ v, f v < fs.length) → (data.foldl (fun fs v => fs.modify (f v) (· + 1)) fs).sum = fs.sum + data.length := by
  induction data with
  | nil => intro fs _; simp
  | cons v vs ih =>
    intro fs h
    rw [List.foldl_cons, ih _ (by intro w; rw [List.length_modify]; exact h w), modify_sum _ _ (h v), List.length_cons]
    omega

theorem binOf_le (bins : List ℚ) (v : ℚ) : binOf bins v ≤ bins.length := by
  unfold binOf
  split
  · rename_i i h
    obtain ⟨hlt, _⟩ := List.findIdx?_eq_some_iff_getElem.mp h
    omega
  · exact le_refl _

theorem binOf_iff (bins : List ℚ) (v : ℚ) (i : Nat) (hi : i ≤ bins.length) : binOf bins v = i ↔ (i = bins.length ∨ v ≤ bins.getD i 0) ∧ ∀ j < i, bins.getD j 0 < v := by
  unfold binOf
  cases h : bins.findIdx? (fun b => decide (v ≤ b)) with
  | none =>
    rw [List.findIdx?_eq_none_iff] at h
    have hall : ∀ j < bins.length, bins.getD j 0 < v := by
      intro j hj
      have := h bins[j] (List.getElem_mem hj)
      simpa [List.getD_eq_getElem?_getD, List.getElem?_eq_getElem hj] using this
    simp only
    constructor
    · rintro rfl; exact ⟨.inl rfl, hall⟩
    · rintro ⟨h1 | h1, _⟩
      · exact h1.symm
      · rcases Nat.lt_or_ge i bins.length with hlt | hge
        · have := hall i hlt; linarith
        · omega
  | some k =>
    obtain ⟨hlt, hk, hbefore⟩ := List.findIdx?_eq_some_iff_getElem.mp h
    have hk' : v ≤ bins.getD k 0 := by simpa [List.getD_eq_getElem?_getD, List.getElem?_eq_getElem hlt] using hk
    have hb' : ∀ j < k, bins.getD j 0 < v := by
      intro j hj
      have hjl : j < bins.length := by omega
      have := hbefore j hj
      simpa [List.getD_eq_getElem?_getD, List.getElem?_eq_getElem hjl] using this
    simp only
    constructor
    · rintro rfl; exact ⟨.inr hk', hb'⟩
    · rintro ⟨h1, h2⟩
      rcases Nat.lt_trichotomy k i with hki | hki | hki
      · have := h2 k hki; linarith
      · exact hki
      · rcases h1 with h1 | h1
        · omega
        · have := hb' i hki; linarith

/-- C86.  FREQUENCY has one entry more than there are bins; entry `i` counts the values up to the `i`-th smallest bin and above the smaller ones, the last one those above all bins. -/
theorem frequency_spec (data bins : List ℚ) : (frequency data bins).length = bins.length + 1 ∧ (frequency data bins).sum = data.length ∧
    ∀ i ≤ bins.length, (frequency data bins)[i]? = some (data.countP fun v => decide ((i = bins.length ∨ v ≤ nth bins i) ∧ ∀ j < i, nth bins j < v)) := by
  unfold frequency
  by_cases hb : bins = []
  · subst hb
    refine ⟨rfl, by simp, ?_⟩
    intro i hi
    have : i = 0 := by simpa using hi
    subst this
    simp
  · rw [if_neg hb]
    simp only
    have hlen := ascending_length bins
    refine ⟨by rw [foldl_length, List.length_replicate], ?_, ?_⟩
    · rw [foldl_sum _ _ _ (by intro v; rw [List.length_replicate, ← hlen]; exact Nat.lt_succ_of_le (binOf_le _ v))]
      simp
    · intro i hi
      rw [foldl_modify, List.getElem?_replicate, if_pos (by omega)]
      simp only [Option.map_some, Nat.zero_add]
      congr 1
      apply List.countP_congr
      intro v _
      rw [beq_iff_eq, decide_eq_true_eq, binOf_iff _ _ _ (by omega), hlen]
      rfl

/-! ## The numbers collected -/

/-- What the values in an argument give: an error, or the numbers that count. -/
def gives {E : Type} : Arg E → List (Except E (List (Option ℚ)))
  | .range cs => cs.map fun | .err e => .error e | .num q => .ok [some q] | _ => .ok []
  | .array vs => vs.map fun | .err e => .error e | v => .ok v.coerce.toList
  | .scalar v => [v].map fun | .err e => .error e | v => .ok v.coerce.toList

/-- All numbers in order, or the first error. -/
def gather {E : Type} : List (Except E (List (Option ℚ))) → Except E (List (Option ℚ))
  | [] => .ok []
  | .error e :: _ => .error e
  | .ok ns :: rest => match gather rest with | .error e => .error e | .ok ms => .ok (ns ++ ms)

theorem gather_append {E : Type} (a b : List (Except E (List (Option ℚ)))) : gather (a ++ b) = match gather a with | .error e => .error e | .ok ns => match gather b with | .error e => .error e | .ok ms => .ok (ns ++ ms) := by
  induction a with
  | nil => simp only [List.nil_append, gather]; cases gather b <;> rfl
  | cons x xs ih =>
    cases x with
    | error e => rfl
    | ok ns =>
      simp only [List.cons_append, gather, ih]
      cases gather xs with
      | error e => rfl
      | ok ms => cases gather b with
        | error e => rfl
        | ok ks => simp

theorem fromRange_gives {E : Type} (cs : List (Val E)) : ∀ out, fromRange cs out = match gather (gives (.range cs)) with | .error e => .error e | .ok ns => .ok (out ++ ns) := by
  induction cs with
  | nil => intro out; simp [fromRange, gives, gather]
  | cons c cs ih =>
    intro out
    simp only [gives] at ih
    cases c <;> simp only [fromRange, gives, List.map_cons, gather, ih] <;> cases gather _ <;> simp

theorem fromScalars_gives {E : Type} (vs : List (Val E)) : ∀ out, fromScalars vs out = match gather (gives (.array vs)) with | .error e => .error e | .ok ns => .ok (out ++ ns) := by
  induction vs with
  | nil => intro out; simp [fromScalars, gives, gather]
  | cons c cs ih =>
    intro out
    simp only [gives] at ih
    cases c with
    | text p => cases p <;> simp only [fromScalars, Val.coerce, gives, List.map_cons, gather, ih, Option.toList] <;> cases gather _ <;> simp
    | _ => simp only [fromScalars, Val.coerce, gives, List.map_cons, gather, ih, Option.toList] <;> cases gather _ <;> simp

/-- C86.  The numbers are taken in the order of the arguments, and the result is the first error if there is one. -/
theorem collect_spec {E : Type} (args : List (Arg E)) : collect args [] = gather (args.flatMap gives) := by
  have key : ∀ args : List (Arg E), ∀ out, collect args out = match gather (args.flatMap gives) with | .error e => .error e | .ok ns => .ok (out ++ ns) := by
    intro args
    induction args with
    | nil => intro out; simp [collect, gather]
    | cons a as ih =>
      intro out
      have e : collect (a :: as) out = match gather (gives a) with | .error e => .error e | .ok ns => collect as (out ++ ns) := by
        cases a with
        | range cs => simp only [collect]; rw [fromRange_gives]; cases gather (gives (.range cs)) <;> rfl
        | array vs => simp only [collect]; rw [fromScalars_gives]; cases gather (gives (.array vs)) <;> rfl
        | scalar v =>
          simp only [collect]
          rw [fromScalars_gives]
          have : gives (.array [v]) = gives (.scalar v) := rfl
          rw [this]
          cases gather (gives (.scalar v)) <;> rfl
      rw [List.flatMap_cons, gather_append, e]
      cases gather (gives a) with
      | error e => rfl
      | ok ns =>
        simp only
        rw [ih]
        cases gather (as.flatMap gives) with
        | error e => rfl
        | ok ms => simp
  rw [key]
  cases gather (args.flatMap gives) <;> simp

/-- A single value that is a text or an entry of an array that is read as `nan`. -/
def readsNan {E : Type} : Arg E → Prop
  | .range _ => False
  | .array vs => .text (some none) ∈ vs
  | .scalar v => v = .text (some none)

theorem gather_some {E : Type} (l : List (Except E (List (Option ℚ)))) (h : ∀ ns, Except.ok ns ∈ l → none ∉ ns) : ∀ ns, gather l = .ok ns → none ∉ ns := by
  induction l with
  | nil => intro ns hn; cases hn; simp
  | cons x xs ih =>
    intro ns hn
    cases x with
    | error e => cases hn
    | ok ms =>
      simp only [gather] at hn
      cases hg : gather xs with
      | error e => rw [hg] at hn; cases hn
      | ok ks =>
        rw [hg] at hn
        cases hn
        rw [List.mem_append, not_or]
        exact ⟨h ms (by simp), ih (fun ns hns => h ns (List.mem_cons_of_mem _ hns)) ks hg⟩

/-- C86.  Without a text read as `nan` the functions of the collected numbers end; only then. -/
theorem no_panic_partial {E : Type} (sel : Select) (args : List (Arg E)) (h : ∀ a ∈ args, ¬readsNan a) : medianFn sel args ≠ .ok .panic := by
  have hc : ∀ ns, collect args [] = .ok ns → none ∉ ns := by
    rw [collect_spec]
    apply gather_some
    intro ns hns
    rw [List.mem_flatMap] at hns
    obtain ⟨a, ha, hm⟩ := hns
    have hsc : ∀ v : Val E, v ≠ .text (some none) → ∀ ns : List (Option ℚ), (match v with | .err e => (.error e : Except E (List (Option ℚ))) | v => (.ok v.coerce.toList : Except E (List (Option ℚ)))) = .ok ns → none ∉ ns := by
      intro v hv ns hns
      cases v with
      | text p =>
        cases p with
        | none => cases hns; simp [Val.coerce]
        | some q =>
          cases q with
          | none => exact absurd rfl hv
          | some q => cases hns; simp [Val.coerce]
      | err e => cases hns
      | _ => cases hns; simp [Val.coerce]
    cases a with
    | range cs =>
      simp only [gives, List.mem_map] at hm
      obtain ⟨c, _, hc⟩ := hm
      cases c <;> cases hc <;> simp
    | array vs =>
      simp only [gives, List.mem_map] at hm
      obtain ⟨v, hv, he⟩ := hm
      exact hsc v (by rintro rfl; exact h _ ha hv) ns he
    | scalar v =>
      simp only [gives, List.map_cons, List.map_nil, List.mem_singleton] at hm
      exact hsc v (fun hc => h _ ha hc) ns hm.symm
  unfold medianFn
  cases hcol : collect args [] with
  | error e => simp
  | ok ns =>
    have hn := hc ns hcol
    have hall : ns.all Option.isSome = true := by
      rw [List.all_eq_true]
      intro x hx
      cases x with
      | none => exact absurd hx hn
      | some q => rfl
    simp only [onNumbers, hall, if_true]
    intro hp
    by_cases hne : ns.filterMap id = []
    · rw [hne] at hp
      simp [median] at hp
    · rw [median_eq sel hne] at hp
      cases hp

/-- `=MEDIAN("nan", 1)` ends the program: the text is read as a number that cannot be compared. -/
theorem nan_panics (sel : Select) : medianFn (E := Unit) sel [.scalar (.text (some none)), .scalar (.num 1)] = .ok .panic := rfl

/-! ## Cases -/

example : trimmean [100, 1, 2, 3, 4, 5, 6, 7, 8, -50] (1 / 5) = .val (9 / 2) := by decide +kernel
example : trimmean [1, 2, 6] 0 = .val 3 ∧ trimmean [1, 2] 1 = .num := by decide +kernel
example : percentrankIncRaw [4, 1, 2, 3, 10] 3 = some (1 / 2) ∧ percentrankIncRaw [4, 1, 2, 3, 10] 7 = some (7 / 8) ∧ percentrank percentrankIncRaw [4, 1, 2, 3, 10] 7 1 = .val (4 / 5) ∧ percentrankIncRaw [4, 1] 5 = none := by decide +kernel
example : percentrankExcRaw [4, 1, 2, 3, 10] 7 = some (3 / 4) ∧ percentrankExcRaw [4] 4 = some (1 / 2) := by decide +kernel
example : frequency [79, 85, 78, 85, 50, 81, 95, 88, 97] [89, 70, 79] = [1, 2, 4, 2] := by decide +kernel
example : collect (E := Unit) [.range [.num 2, .bool true, .text (some (some 5))], .scalar (.bool true), .array [.text (some (some 5)), .num 7]] [] = .ok [some 2, some 1, some 5, some 7] := rfl
example : collect (E := Nat) [.range [.num 2], .scalar (.err 7), .scalar (.err 8)] [] = .error 7 := rfl

end Verif.Order

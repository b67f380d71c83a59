import Verif.Order.Percentile

/-!
# RANK, MODE, TRIMMEAN, PERCENTRANK, FREQUENCY and the numbers collected
-/

namespace Verif.Order

theorem near_iff {t v : ℚ} : near t v = true ↔ t - eps < v ∧ v < t + eps := by
  simp only [near, decide_eq_true_eq, abs_lt]
  constructor <;> rintro ⟨h1, h2⟩ <;> constructor <;> linarith

theorem eps_pos : (0 : ℚ) < eps := by norm_num [eps]

/-- In a list in either order, the first place near the target follows exactly the numbers beyond it. -/
theorem findIdx_near {t : ℚ} {le : ℚ → ℚ → Prop} {beyond : ℚ → Bool} (hb : ∀ a b, le a b → near t b = true → near t a = false → beyond a = true)
    (hn : ∀ a b, le a b → near t a = true → beyond b = false) (hnn : ∀ a, near t a = true → beyond a = false) (l : List ℚ) (hs : l.Pairwise le) :
    ∀ i, l.findIdx? (near t) = some i → i = l.countP beyond := by
  induction l with
  | nil => intro i h; cases h
  | cons a l ih =>
    intro i h
    rw [List.pairwise_cons] at hs
    rw [List.findIdx?_cons] at h
    split at h
    · rename_i ha
      cases h
      rw [List.countP_cons, countP_zero (fun x hx => hn a x (hs.1 x hx) ha), hnn a ha]
      simp
    · rename_i ha
      simp only [Bool.not_eq_true] at ha
      cases hf : l.findIdx? (near t) with
      | none => rw [hf] at h; cases h
      | some j =>
        rw [hf] at h
        cases h
        have hj := ih hs.2 j hf
        obtain ⟨hlt, hnear⟩ := List.findIdx?_eq_some_iff_getElem.mp hf
        rw [List.countP_cons, hb a l[j] (hs.1 _ (List.getElem_mem hlt)) hnear.1 ha, ← hj]
        simp

/-- Twice the sum of the places near the target. -/
theorem positions_sum {t : ℚ} {le : ℚ → ℚ → Prop} {beyond : ℚ → Bool} (hb : ∀ a b, le a b → near t b = true → near t a = false → beyond a = true)
    (hn : ∀ a b, le a b → near t a = true → beyond b = false) (hnn : ∀ a, near t a = true → beyond a = false) (l : List ℚ) (hs : l.Pairwise le) :
    ∀ i, (positions t i l).length = l.countP (near t) ∧ 2 * (positions t i l).sum = l.countP (near t) * (2 * (i + l.countP beyond) + l.countP (near t) + 1) := by
  induction l with
  | nil => intro i; simp [positions]
  | cons a l ih =>
    intro i
    rw [List.pairwise_cons] at hs
    obtain ⟨i1, i2⟩ := ih hs.2 (i + 1)
    rw [positions]
    by_cases ha : near t a = true
    · rw [if_pos ha, List.countP_cons, List.countP_cons, countP_zero (p := beyond) (l := l) (fun x hx => hn a x (hs.1 x hx) ha), hnn a ha]
      rw [countP_zero (p := beyond) (l := l) (fun x hx => hn a x (hs.1 x hx) ha)] at i2
      simp only [ha, if_true, Bool.false_eq_true, if_false, List.length_cons, List.sum_cons, Nat.add_zero] at *
      refine ⟨by omega, ?_⟩
      rw [Nat.mul_add, i2]
      ring
    · rw [if_neg ha, List.countP_cons, List.countP_cons, if_neg ha]
      refine ⟨by omega, ?_⟩
      rw [i2]
      by_cases hm : l.countP (near t) = 0
      · rw [hm]; simp
      · obtain ⟨b, hbm, hbn⟩ := List.countP_pos_iff.mp (Nat.pos_of_ne_zero hm)
        rw [hb a b (hs.1 b hbm) hbn (by simpa using ha)]
        simp only [if_true]
        ring

theorem desc_beyond (t : ℚ) : (∀ a b : ℚ, b ≤ a → near t b = true → near t a = false → decide (t + eps ≤ a) = true) ∧ (∀ a b : ℚ, b ≤ a → near t a = true → decide (t + eps ≤ b) = false) ∧
    ∀ a : ℚ, near t a = true → decide (t + eps ≤ a) = false := by
  refine ⟨fun a b hab hb ha => ?_, fun a b hab ha => ?_, fun a ha => ?_⟩
  · rw [decide_eq_true_eq]
    by_contra hc
    rw [near_iff] at hb
    have : near t a = true := near_iff.mpr ⟨by linarith [hb.1], by linarith⟩
    rw [this] at ha
    cases ha
  · rw [decide_eq_false_iff_not]
    have := (near_iff.mp ha).2
    linarith
  · rw [decide_eq_false_iff_not]
    have := (near_iff.mp ha).2
    linarith

theorem asc_beyond (t : ℚ) : (∀ a b : ℚ, a ≤ b → near t b = true → near t a = false → decide (a ≤ t - eps) = true) ∧ (∀ a b : ℚ, a ≤ b → near t a = true → decide (b ≤ t - eps) = false) ∧
    ∀ a : ℚ, near t a = true → decide (a ≤ t - eps) = false := by
  refine ⟨fun a b hab hb ha => ?_, fun a b hab ha => ?_, fun a ha => ?_⟩
  · rw [decide_eq_true_eq]
    by_contra hc
    rw [near_iff] at hb
    have : near t a = true := near_iff.mpr ⟨by linarith, by linarith [hb.2]⟩
    rw [this] at ha
    cases ha
  · rw [decide_eq_false_iff_not]
    have := (near_iff.mp ha).1
    linarith
  · rw [decide_eq_false_iff_not]
    have := (near_iff.mp ha).1
    linarith

/-- The numbers that come before those near the target: in descending order (order 0) the larger ones, otherwise the smaller ones. -/
def ahead (t order : ℚ) (nums : List ℚ) : Nat := if |order| < eps then nums.countP (fun x => decide (t + eps ≤ x)) else nums.countP (fun x => decide (x ≤ t - eps))

theorem ordered_perm (order : ℚ) (nums : List ℚ) : (ordered order nums).Perm nums := by
  unfold ordered
  split
  · exact descending_perm nums
  · exact ascending_perm nums

/-- C86.  RANK.EQ is one more than the number of values ahead of the target, and #N/A if no value is the target, both up to the tolerance. -/
theorem rank_eq_spec (t order : ℚ) (nums : List ℚ) :
    ((∃ x ∈ nums, near t x = true) → rankEq t order nums = .val (ahead t order nums + 1)) ∧ ((¬∃ x ∈ nums, near t x = true) → rankEq t order nums = .na) := by
  have hp := ordered_perm order nums
  constructor
  · rintro ⟨x, hx, hn⟩
    have hne : nums ≠ [] := by rintro rfl; cases hx
    unfold rankEq
    rw [if_neg hne]
    cases hf : (ordered order nums).findIdx? (near t) with
    | none =>
      rw [List.findIdx?_eq_none_iff] at hf
      rw [hf x (hp.mem_iff.mpr hx)] at hn
      cases hn
    | some i =>
      have : i = ahead t order nums := by
        unfold ahead
        unfold ordered at hf
        split at hf
        · rename_i ho
          rw [if_pos ho, ← (descending_perm nums).countP_eq]
          obtain ⟨b1, b2, b3⟩ := desc_beyond t
          exact findIdx_near b1 b2 b3 _ (descending_sorted nums) i hf
        · rename_i ho
          rw [if_neg ho, ← (ascending_perm nums).countP_eq]
          obtain ⟨b1, b2, b3⟩ := asc_beyond t
          exact findIdx_near b1 b2 b3 _ (ascending_sorted nums) i hf
      simp only [this]
  · intro h
    unfold rankEq
    split
    · rfl
    · cases hf : (ordered order nums).findIdx? (near t) with
      | none => rfl
      | some i =>
        obtain ⟨hlt, hnear⟩ := List.findIdx?_eq_some_iff_getElem.mp hf
        exact absurd ⟨_, hp.mem_iff.mp (List.getElem_mem hlt), hnear.1⟩ h

/-- C86.  RANK.AVG is the middle of the places taken by the target. -/
theorem rank_avg_spec (t order : ℚ) (nums : List ℚ) :
    ((∃ x ∈ nums, near t x = true) → rankAvg t order nums = .val (ahead t order nums + (nums.countP (near t) + 1) / 2)) ∧ ((¬∃ x ∈ nums, near t x = true) → rankAvg t order nums = .na) := by
  have hp := ordered_perm order nums
  have key : (positions t 0 (ordered order nums)).length = nums.countP (near t) ∧ 2 * (positions t 0 (ordered order nums)).sum = nums.countP (near t) * (2 * ahead t order nums + nums.countP (near t) + 1) := by
    unfold ahead ordered
    split
    · rename_i ho
      obtain ⟨b1, b2, b3⟩ := desc_beyond t
      have := positions_sum b1 b2 b3 _ (descending_sorted nums) 0
      rw [(descending_perm nums).countP_eq, (descending_perm nums).countP_eq, Nat.zero_add] at this
      exact this
    · rename_i ho
      obtain ⟨b1, b2, b3⟩ := asc_beyond t
      have := positions_sum b1 b2 b3 _ (ascending_sorted nums) 0
      rw [(ascending_perm nums).countP_eq, (ascending_perm nums).countP_eq, Nat.zero_add] at this
      exact this
  constructor
  · rintro ⟨x, hx, hn⟩
    have hpos : 0 < nums.countP (near t) := List.countP_pos_iff.mpr ⟨x, hx, hn⟩
    have hne : nums ≠ [] := by rintro rfl; cases hx
    unfold rankAvg
    rw [if_neg hne]
    simp only
    rw [if_neg (by intro hc; rw [hc] at key; simp at key; omega)]
    congr 1
    have h0 : (0 : ℚ) < nums.countP (near t) := by exact_mod_cast hpos
    rw [key.1, div_eq_iff h0.ne']
    have := congrArg (Nat.cast : ℕ → ℚ) key.2
    push_cast at this
    linarith
  · intro h
    have hz : nums.countP (near t) = 0 := by
      rw [List.countP_eq_zero]
      intro x hx hn
      exact h ⟨x, hx, hn⟩
    unfold rankAvg
    split
    · rfl
    · simp only
      rw [if_pos (List.length_eq_zero_iff.mp (key.1.trans hz))]

/-- C86.  The average ranks from both ends add up to `n + 1`. -/
theorem rank_avg_both (t : ℚ) (nums : List ℚ) (a b : ℚ) (ha : rankAvg t 0 nums = .val a) (hb : rankAvg t 1 nums = .val b) : a + b = nums.length + 1 := by
  have hex : ∃ x ∈ nums, near t x = true := by
    by_contra h
    rw [(rank_avg_spec t 0 nums).2 h] at ha
    cases ha
  rw [(rank_avg_spec t 0 nums).1 hex] at ha
  rw [(rank_avg_spec t 1 nums).1 hex] at hb
  cases ha
  cases hb
  have e0 : |(0 : ℚ)| < eps := by rw [abs_zero]; exact eps_pos
  have e1 : ¬|(1 : ℚ)| < eps := by norm_num [eps]
  have hlen : nums.countP (fun x => decide (t + eps ≤ x)) + nums.countP (fun x => decide (x ≤ t - eps)) + nums.countP (near t) = nums.length := by
    clear hex
    induction nums with
    | nil => rfl
    | cons x xs ih =>
      simp only [List.countP_cons, List.length_cons]
      have hep := eps_pos
      have : (if decide (t + eps ≤ x) = true then 1 else 0) + (if decide (x ≤ t - eps) = true then 1 else 0) + (if near t x = true then 1 else 0) = 1 := by
        simp only [decide_eq_true_eq, near_iff]
        by_cases h1 : t + eps ≤ x
        · rw [if_pos h1, if_neg (by linarith), if_neg (by rintro ⟨_, h⟩; linarith)]
        · by_cases h2 : x ≤ t - eps
          · rw [if_neg h1, if_pos h2, if_neg (by rintro ⟨h, _⟩; linarith)]
          · rw [if_neg h1, if_neg h2, if_pos ⟨by linarith, by linarith⟩]
      omega
  have := congrArg (Nat.cast : ℕ → ℚ) hlen
  push_cast at this
  simp only [ahead, if_pos e0, if_neg e1]
  linarith

/-- The tolerance is absolute: for small numbers RANK does not tell them apart. -/
theorem rank_small_wrong : ∃ (nums : List ℚ) (t : ℚ), t ∈ nums ∧ nums.Nodup ∧ rankEq t 0 nums ≠ .val (nums.countP (fun x => decide (t < x)) + 1) :=
  ⟨[1 / 10 ^ 13, 3 / 10 ^ 13], 1 / 10 ^ 13, by decide +kernel, by decide +kernel, by decide +kernel⟩

/-! ## MODE -/

/-- The largest number of repeats. -/
def top (rs : List (ℚ × Nat)) : Nat := (rs.map Prod.snd).foldr max 0

/-- The better of the two runs at the end of the loop. -/
def pick (r : (ℚ × Nat) × (ℚ × Nat)) : ℚ × Nat := if r.2.2 > r.1.2 then r.2 else r.1

theorem modeLoop_runs (l : List ℚ) : ∀ best cur : ℚ × Nat,
    pick (modeLoop best cur l) = ((runs cur l).filter fun x => decide (x.2 > best.2 ∧ x.2 = top (runs cur l))).headD best := by
  induction l with
  | nil =>
    intro best cur
    simp only [pick, modeLoop, runs, top, List.map_cons, List.map_nil, List.foldr_cons, List.foldr_nil, Nat.max_zero]
    by_cases h : cur.2 > best.2
    · simp [h]
    · simp [h]
  | cons v vs ih =>
    intro best cur
    by_cases hn : near cur.1 v = true
    · have e1 : modeLoop best cur (v :: vs) = modeLoop best (cur.1, cur.2 + 1) vs := by rw [modeLoop, if_pos hn]
      have e2 : runs cur (v :: vs) = runs (cur.1, cur.2 + 1) vs := by rw [runs, if_pos hn]
      simp only [e1, e2]
      exact ih best (cur.1, cur.2 + 1)
    · have e1 : modeLoop best cur (v :: vs) = modeLoop (if cur.2 > best.2 then cur else best) (v, 1) vs := by rw [modeLoop, if_neg hn]
      have e2 : runs cur (v :: vs) = cur :: runs (v, 1) vs := by rw [runs, if_neg hn]
      simp only [e1, e2]
      have := ih (if cur.2 > best.2 then cur else best) (v, 1)
      rw [this]
      generalize runs (v, 1) vs = rs
      have htop : top (cur :: rs) = max cur.2 (top rs) := rfl
      have hle : ∀ x ∈ rs, x.2 ≤ top rs := by
        intro x hx
        clear this htop
        induction rs with
        | nil => cases hx
        | cons y ys ihy =>
          have : top (y :: ys) = max y.2 (top ys) := rfl
          rcases List.mem_cons.mp hx with rfl | hx
          · omega
          · have := ihy hx; omega
      rw [List.filter_cons, htop]
      by_cases hc : cur.2 > best.2
      · simp only [if_pos hc]
        by_cases ht : top rs > cur.2
        · rw [if_neg (by simp; omega), Nat.max_eq_right (by omega)]
          have hne : rs.filter (fun x => decide (x.2 > cur.2 ∧ x.2 = top rs)) ≠ [] := by
            have hex : ∀ l : List (ℚ × Nat), 0 < top l → ∃ x ∈ l, x.2 = top l := by
              intro l
              induction l with
              | nil => intro h; cases h
              | cons y ys ihy =>
                intro h
                have e : top (y :: ys) = max y.2 (top ys) := rfl
                rcases Nat.le_total (top ys) y.2 with hle | hle
                · exact ⟨y, List.mem_cons_self .., by omega⟩
                · rcases Nat.eq_zero_or_pos (top ys) with h0 | h0
                  · exact ⟨y, List.mem_cons_self .., by omega⟩
                  · obtain ⟨x, hx, he⟩ := ihy h0
                    exact ⟨x, List.mem_cons_of_mem _ hx, by omega⟩
            obtain ⟨x, hx, he⟩ := hex rs (by omega)
            intro hnil
            have : x ∈ rs.filter (fun x => decide (x.2 > cur.2 ∧ x.2 = top rs)) := List.mem_filter.mpr ⟨hx, by simp; omega⟩
            rw [hnil] at this
            cases this
          have hcong : rs.filter (fun x => decide (x.2 > cur.2 ∧ x.2 = top rs)) = rs.filter (fun x => decide (x.2 > best.2 ∧ x.2 = top rs)) := by
            apply List.filter_congr
            intro x _
            simp only [decide_eq_decide]
            constructor <;> rintro ⟨h1, h2⟩ <;> exact ⟨by omega, h2⟩
          rw [hcong] at hne ⊢
          cases hf : rs.filter (fun x => decide (x.2 > best.2 ∧ x.2 = top rs)) with
          | nil => exact absurd hf hne
          | cons y ys => rfl
        · rw [if_pos (by simp; omega)]
          have : rs.filter (fun x => decide (x.2 > cur.2 ∧ x.2 = top rs)) = [] := by
            rw [List.filter_eq_nil_iff]
            intro x hx
            have := hle x hx
            simp only [decide_eq_true_eq]
            omega
          rw [this]
          rfl
      · simp only [if_neg hc]
        rw [if_neg (by simp; omega)]
        congr 1
        apply List.filter_congr
        intro x hx
        have := hle x hx
        simp only [decide_eq_decide]
        constructor <;> rintro ⟨h1, h2⟩ <;> exact ⟨h1, by omega⟩

theorem top_pos (cur : ℚ × Nat) (l : List ℚ) (h : 1 ≤ cur.2) : 1 ≤ top (runs cur l) := by
  induction l generalizing cur with
  | nil => simp [runs, top]; exact h
  | cons v vs ih =>
    simp only [runs]
    split
    · exact ih _ (Nat.le_add_left ..)
    · have : top (cur :: runs (v, 1) vs) = max cur.2 (top (runs (v, 1) vs)) := rfl
      omega

/-- C86.  MODE.SNGL is the first of MODE.MULT. -/
theorem mode_single_head (nums : List ℚ) : modeSingle nums = match modeMult nums with | [] => .na | v :: _ => .val v := by
  unfold modeSingle modeMult
  cases ascending nums with
  | nil => rfl
  | cons v vs =>
    simp only
    have h := modeLoop_runs vs (v, 1) (v, 1)
    unfold pick at h
    rw [h]
    have e : ((runs (v, 1) vs).map Prod.snd).foldr max 0 = top (runs (v, 1) vs) := rfl
    rw [e]
    generalize hrs : runs (v, 1) vs = rs
    by_cases ht : top rs ≤ 1
    · rw [if_pos ht]
      have : rs.filter (fun x => decide (x.2 > (v, 1).2 ∧ x.2 = top rs)) = [] := by
        rw [List.filter_eq_nil_iff]
        intro x _
        simp only [decide_eq_true_eq]
        omega
      rw [this]
      simp
    · rw [if_neg ht]
      have hcong : rs.filter (fun x => decide (x.2 > (v, 1).2 ∧ x.2 = top rs)) = rs.filter (fun x => x.2 == top rs) := by
        apply List.filter_congr
        intro x _
        simp only [beq_eq_decide, decide_eq_decide]
        constructor
        · exact fun h => h.2
        · intro h; exact ⟨by omega, h⟩
      rw [hcong]
      have hmem : ∀ y ys, rs.filter (fun x => x.2 == top rs) = y :: ys → y.2 = top rs := by
        intro y ys hy
        have : y ∈ rs.filter (fun x => x.2 == top rs) := by rw [hy]; exact List.mem_cons_self ..
        simpa using (List.mem_filter.mp this).2
      cases hf : rs.filter (fun x => x.2 == top rs) with
      | nil => simp
      | cons y ys =>
        have := hmem y ys hf
        simp only [List.headD_cons, List.map_cons]
        have hy : ¬y.2 ≤ 1 := by omega
        simp only [hy, if_false]

theorem runs_mem (l : List ℚ) : ∀ (a : ℚ) (c : Nat), (a :: l).Pairwise (· ≤ ·) → Separated (a :: l) → ∀ v n, (v, n) ∈ runs (a, c) l ↔ (v = a ∧ n = c + l.count a) ∨ (v ∈ l ∧ v ≠ a ∧ n = l.count v) := by
  induction l with
  | nil => intro a c _ _ v n; simp [runs]
  | cons b l ih =>
    intro a c hs hsep v n
    rw [List.pairwise_cons] at hs
    have hsl := hs.2
    have hab := hs.1 b (List.mem_cons_self ..)
    simp only [runs]
    by_cases hn : near a b = true
    · have heq : b = a := by
        have := hsep b (by simp) a (by simp) (by simpa [near] using hn)
        exact this
      subst heq
      rw [if_pos hn, ih b (c + 1) hsl (fun x hx y hy => hsep x (List.mem_cons_of_mem _ hx) y (List.mem_cons_of_mem _ hy))]
      simp only [List.count_cons_self, List.mem_cons]
      constructor
      · rintro (⟨rfl, rfl⟩ | ⟨h1, h2, rfl⟩)
        · exact .inl ⟨rfl, by omega⟩
        · exact .inr ⟨.inr h1, h2, by rw [List.count_cons_of_ne (Ne.symm h2)]⟩
      · rintro (⟨rfl, rfl⟩ | ⟨h1 | h1, h2, rfl⟩)
        · exact .inl ⟨rfl, by omega⟩
        · exact absurd h1 h2
        · exact .inr ⟨h1, h2, by rw [List.count_cons_of_ne (Ne.symm h2)]⟩
    · have hne : b ≠ a := by
        rintro rfl
        apply hn
        simp [near, eps_pos]
      have hlt : a < b := lt_of_le_of_ne hab (Ne.symm hne)
      have hanl : a ∉ b :: l := by
        intro hm
        rcases List.mem_cons.mp hm with h | h
        · exact hne h.symm
        · have := (List.pairwise_cons.mp hsl).1 a h
          linarith
      rw [if_neg hn, List.mem_cons, ih b 1 hsl (fun x hx y hy => hsep x (List.mem_cons_of_mem _ hx) y (List.mem_cons_of_mem _ hy)), List.count_eq_zero_of_not_mem hanl]
      constructor
      · rintro (h | ⟨rfl, rfl⟩ | ⟨h1, h2, rfl⟩)
        · cases h; exact .inl ⟨rfl, rfl⟩
        · exact .inr ⟨List.mem_cons_self .., hne, by rw [List.count_cons_self]; omega⟩
        · refine .inr ⟨List.mem_cons_of_mem _ h1, ?_, by rw [List.count_cons_of_ne (Ne.symm h2)]⟩
          rintro rfl
          exact hanl (List.mem_cons_of_mem _ h1)
      · rintro (⟨rfl, rfl⟩ | ⟨h1, h2, rfl⟩)
        · exact .inl rfl
        · by_cases hvb : v = b
          · subst hvb
            exact .inr (.inl ⟨rfl, by rw [List.count_cons_self]; omega⟩)
          · refine .inr (.inr ⟨(List.mem_cons.mp h1).resolve_left hvb, hvb, by rw [List.count_cons_of_ne (Ne.symm hvb)]⟩)

theorem runs_sorted (l : List ℚ) : ∀ (a : ℚ) (c : Nat), (a :: l).Pairwise (· ≤ ·) → ((runs (a, c) l).map Prod.fst).Pairwise (· < ·) ∧ ∀ x ∈ (runs (a, c) l).map Prod.fst, a ≤ x := by
  induction l with
  | nil => intro a c _; simp [runs]
  | cons b l ih =>
    intro a c hs
    rw [List.pairwise_cons] at hs
    have hab := hs.1 b (List.mem_cons_self ..)
    simp only [runs]
    by_cases hn : near a b = true
    · rw [if_pos hn]
      refine ih a (c + 1) ?_
      rw [List.pairwise_cons]
      exact ⟨fun x hx => hs.1 x (List.mem_cons_of_mem _ hx), (List.pairwise_cons.mp hs.2).2⟩
    · rw [if_neg hn]
      obtain ⟨i1, i2⟩ := ih b 1 hs.2
      have hlt : a < b := by
        refine lt_of_le_of_ne hab ?_
        rintro rfl
        apply hn
        simp [near, eps_pos]
      simp only [List.map_cons, List.pairwise_cons, List.mem_cons]
      refine ⟨⟨fun x hx => lt_of_lt_of_le hlt (i2 x hx), i1⟩, ?_⟩
      rintro x (rfl | hx)
      · exact le_refl _
      · exact le_trans hab (i2 x hx)

theorem top_mem (rs : List (ℚ × Nat)) (h : 0 < top rs) : ∃ x ∈ rs, x.2 = top rs := by
  induction rs with
  | nil => cases h
  | cons y ys ih =>
    have e : top (y :: ys) = max y.2 (top ys) := rfl
    rcases Nat.le_total (top ys) y.2 with hle | hle
    · exact ⟨y, List.mem_cons_self .., by omega⟩
    · rcases Nat.eq_zero_or_pos (top ys) with h0 | h0
      · exact ⟨y, List.mem_cons_self .., by omega⟩
      · obtain ⟨x, hx, he⟩ := ih h0
        exact ⟨x, List.mem_cons_of_mem _ hx, by omega⟩

theorem le_top {rs : List (ℚ × Nat)} {x : ℚ × Nat} (hx : x ∈ rs) : x.2 ≤ top rs := by
  induction rs with
  | nil => cases hx
  | cons y ys ih =>
    have : top (y :: ys) = max y.2 (top ys) := rfl
    rcases List.mem_cons.mp hx with rfl | hx
    · omega
    · have := ih hx; omega

/-- C86.  MODE.MULT gives in ascending order the numbers that occur most often, if one occurs twice; for numbers that are equal or not within the tolerance. -/
theorem mode_mult_partial (nums : List ℚ) (hsep : Separated nums) :
    (modeMult nums).Pairwise (· < ·) ∧ ∀ v, v ∈ modeMult nums ↔ 2 ≤ nums.count v ∧ ∀ x ∈ nums, nums.count x ≤ nums.count v := by
  have hp := ascending_perm nums
  have hcount : ∀ x, (ascending nums).count x = nums.count x := fun x => hp.count_eq x
  have hmem : ∀ x, x ∈ ascending nums ↔ x ∈ nums := fun x => hp.mem_iff
  have hs := ascending_sorted nums
  unfold modeMult
  revert hcount hmem hs
  generalize ascending nums = s
  intro hcount hmem hs
  cases s with
  | nil =>
    simp only
    refine ⟨.nil, fun v => ⟨fun h => (by cases h), fun ⟨h, _⟩ => ?_⟩⟩
    rw [← hcount v] at h
    simp at h
  | cons a l =>
    have hsep' : Separated (a :: l) := fun x hx y hy => hsep x ((hmem x).mp hx) y ((hmem y).mp hy)
    have hruns : ∀ v n, (v, n) ∈ runs (a, 1) l ↔ v ∈ a :: l ∧ n = (a :: l).count v := by
      intro v n
      rw [runs_mem l a 1 hs hsep' v n]
      by_cases hva : v = a
      · subst hva
        rw [List.count_cons_self]
        constructor
        · rintro (⟨_, rfl⟩ | ⟨_, h, _⟩)
          · exact ⟨List.mem_cons_self .., by omega⟩
          · exact absurd rfl h
        · rintro ⟨_, rfl⟩; exact .inl ⟨rfl, by omega⟩
      · rw [List.count_cons_of_ne (Ne.symm hva)]
        constructor
        · rintro (⟨h, _⟩ | ⟨h1, _, h2⟩)
          · exact absurd h hva
          · exact ⟨List.mem_cons_of_mem _ h1, h2⟩
        · rintro ⟨h1, h2⟩; exact .inr ⟨(List.mem_cons.mp h1).resolve_left hva, hva, h2⟩
    have hsorted := (runs_sorted l a 1 hs).1
    simp only
    have e : ((runs (a, 1) l).map Prod.snd).foldr max 0 = top (runs (a, 1) l) := rfl
    rw [e]
    have htp := top_pos (a, 1) l (le_refl _)
    obtain ⟨m, hm, hmt⟩ := top_mem _ htp
    have hmr := (hruns m.1 m.2).mp hm
    by_cases ht : top (runs (a, 1) l) ≤ 1
    · rw [if_pos ht]
      refine ⟨.nil, fun v => ⟨fun h => (by cases h), fun ⟨h2, _⟩ => ?_⟩⟩
      have hv : v ∈ a :: l := (hmem v).mpr (List.count_pos_iff.mp (by omega))
      have := le_top ((hruns v ((a :: l).count v)).mpr ⟨hv, rfl⟩)
      simp only at this
      rw [hcount v] at this
      omega
    · rw [if_neg ht]
      refine ⟨hsorted.sublist (List.Sublist.map _ List.filter_sublist), fun v => ?_⟩
      simp only [List.mem_map, List.mem_filter, beq_iff_eq]
      constructor
      · rintro ⟨⟨w, n⟩, ⟨hr, hn⟩, rfl⟩
        simp only at hn ⊢
        have h1 := (hruns w n).mp hr
        rw [hcount w] at h1
        refine ⟨by omega, fun x hx => ?_⟩
        have := le_top ((hruns x ((a :: l).count x)).mpr ⟨(hmem x).mpr hx, rfl⟩)
        simp only at this
        rw [hcount x] at this
        omega
      · rintro ⟨h2, hall⟩
        have hv : v ∈ a :: l := (hmem v).mpr (List.count_pos_iff.mp (by omega))
        refine ⟨(v, (a :: l).count v), ⟨(hruns v _).mpr ⟨hv, rfl⟩, ?_⟩, rfl⟩
        have h3 := le_top ((hruns v ((a :: l).count v)).mpr ⟨hv, rfl⟩)
        have h4 := hall m.1 ((hmem m.1).mp hmr.1)
        simp only at h3 ⊢
        rw [hcount v] at h3 ⊢
        rw [hcount m.1] at hmr
        omega

/-! ## Cases -/

example : rankEq 20 0 [30, 20, 20, 10] = .val 2 ∧ rankEq 20 1 [30, 20, 20, 10] = .val 2 ∧ rankAvg 20 0 [30, 20, 20, 10] = .val (5 / 2) ∧ rankEq 15 0 [30, 20] = .na := by decide +kernel
example : modeMult [3, 1, 3, 1, 2] = [1, 3] ∧ modeSingle [3, 1, 3, 1, 2] = .val 1 ∧ modeMult [1, 2] = [] := by decide +kernel
example : Separated [3, 1, 3, 1, 2] := by unfold Separated; decide +kernel

end Verif.Order

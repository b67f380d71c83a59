import Mathlib.Analysis.SpecialFunctions.Pow.Real
import Mathlib.Algebra.Order.BigOperators.Group.Finset
import Verif.Days.Coupon

/-!
# Prices and yields of bonds

Model of `/repo/crates/formualizer-eval/src/builtins/financial/bonds.rs` 630-690
(`calculate_price`), 830-905 (`calculate_yield`) and of the bills, 962-1010, 1078-1118,
1178-1218. Numbers are real numbers where the code uses `f64`.
-/

namespace Verif.Days

open Verif.Dates

/-- The part of the period still to come: 642-651. -/
noncomputable def share (S prev next : Date) (basis : Int) : ℝ :=
  if 0 < daysBetween prev next basis then (daysBetween S next basis : ℝ) / daysBetween prev next basis else 0

/-- `calculate_price` with the coupons counted: 639-689. `dsn` is the part of the period
still to come. -/
noncomputable def priceOf (n : Nat) (dsn rate yld redemption freq : ℝ) : ℝ :=
  if n = 1 then (redemption + 100 * rate / freq) / (1 + dsn * (yld / freq)) - (1 - dsn) * (100 * rate / freq)
  else
    (∑ k ∈ Finset.range n, 100 * rate / freq / ((1 + yld / freq) ^ dsn * (1 + yld / freq) ^ k))
      + redemption / ((1 + yld / freq) ^ dsn * (1 + yld / freq) ^ (n - 1)) - (1 - dsn) * (100 * rate / freq)

/-- `PRICE`: 580-627. `none` is `#NUM!`. -/
noncomputable def price (S M : Date) (rate yld redemption : ℝ) (freq : Nat) (basis : Int) (fuel : Nat) : Option ℝ :=
  if rate < 0 ∨ yld < 0 ∨ redemption ≤ 0 then none
  else if freq ≠ 1 ∧ freq ≠ 2 ∧ freq ≠ 4 then none
  else if ¬(0 ≤ basis ∧ basis ≤ 4) then none
  else if M.le S then none
  else some (priceOf (remaining S (12 / freq) fuel M)
    (share S (before S (12 / freq) fuel M) (after S (12 / freq) fuel M) basis) rate yld redemption freq)

/-- The first day of the count of the bonds. -/
theorem us30_eq {a b : Date} (ha : a.Valid) (hb : b.Valid) :
    ∃ s e : Nat, us30 a b = 360 * (b.year - a.year) + 30 * ((b.month : Int) - a.month) + (e - s) ∧
      (a.month = 2 ∧ a.day = daysInMonth a.year a.month → s = 30) ∧
      (¬(a.month = 2 ∧ a.day = daysInMonth a.year a.month) → s = min a.day 30) ∧
      e ≤ 31 ∧ b.day ≤ e + 1 ∧ e ≤ b.day + 2 ∧ (e = 31 → b.day = 31 ∧ s < 30) ∧ (b.day = 31 → s < 30 → e = 31) ∧
      (b.day < e → e = 30 ∧ a.month = 2 ∧ a.day = daysInMonth a.year a.month ∧ b.month = 2 ∧ b.day = daysInMonth b.year b.month) ∧
      (b.day ≤ 30 → ¬(a.month = 2 ∧ a.day = daysInMonth a.year a.month) → e = b.day) ∧
      (a.month = 2 ∧ a.day = daysInMonth a.year a.month → b.month = 2 ∧ b.day = daysInMonth b.year b.month → e = 30) := by
  have la := month_length a.year ha.1 ha.2.1
  have lb := month_length b.year hb.1 hb.2.1
  have a4 := ha.2.2.2
  have b4 := hb.2.2.2
  unfold us30 count360
  simp only [isLast_iff ha, isLast_iff hb]
  generalize daysInMonth a.year a.month = A at *
  generalize daysInMonth b.year b.month = B at *
  by_cases fa : a.month = 2 ∧ a.day = A
  · by_cases fb : b.month = 2 ∧ b.day = B
    · refine ⟨30, 30, ?_, ?_⟩
      · simp only [fa, fb, and_self, if_true]; norm_num
      · omega
    · refine ⟨30, if b.day = 31 then 30 else b.day, ?_, ?_⟩
      · simp only [fa, fb, and_true, and_false, if_true, if_false, le_refl]; norm_num
      · split_ifs <;> omega
  · refine ⟨if a.day = 31 then 30 else a.day, if b.day = 31 ∧ 30 ≤ a.day then 30 else b.day, ?_, ?_⟩
    · simp only [fa, false_and, if_false]
    · split_ifs <;> omega

theorem us30_anti {a c b : Date} (ha : a.Valid) (hc : c.Valid) (hb : b.Valid) (h : a.le c) : us30 c b ≤ us30 a b := by
  rcases h with h | h
  · have la := month_length a.year ha.1 ha.2.1
    have lc := month_length c.year hc.1 hc.2.1
    have lb := month_length b.year hb.1 hb.2.1
    have a4 := ha.2.2.2
    have c4 := hc.2.2.2
    have b4 := hb.2.2.2
    have c3 := hc.2.2.1
    have a1 := ha.1
    have a2 := ha.2.1
    have c1 := hc.1
    have c2 := hc.2.1
    have key : a.year = c.year → a.month = c.month → daysInMonth a.year a.month = daysInMonth c.year c.month := by
      intro h2 h3
      rw [h2, h3]
    obtain ⟨s, e, hu, p1, p2, p3, p4, p5, p6, p7, p8, p9, p10⟩ := us30_eq ha hb
    obtain ⟨t, g, hv, q1, q2, q3, q4, q5, q6, q7, q8, q9, q10⟩ := us30_eq hc hb
    rw [hu, hv]
    unfold Date.lt at h
    generalize daysInMonth a.year a.month = A at *
    generalize daysInMonth b.year b.month = B at *
    generalize daysInMonth c.year c.month = C at *
    have hs : s ≤ 30 := by
      by_cases fa : a.month = 2 ∧ a.day = A
      · have := p1 fa; omega
      · have := p2 fa; omega
    have ht : 1 ≤ t := by
      by_cases fc : c.month = 2 ∧ c.day = C
      · have := q1 fc; omega
      · have := q2 fc; omega
    by_cases hD : a.year = c.year ∧ a.month = c.month
    · have hAC := key hD.1 hD.2
      have hlt : a.day < c.day := by clear p1 p2 p8 p9 p10 q1 q2 q8 q9 q10; omega
      have fa : ¬(a.month = 2 ∧ a.day = A) := by clear p1 p2 p8 p9 p10 q1 q2 q8 q9 q10; omega
      have hsa := p2 fa
      have hyi : (a.year : Int) = c.year := hD.1
      have hmi : (a.month : Int) = c.month := by rw [hD.2]
      have hst : (e : Int) - g + (t - s) ≥ 0 := by
        by_cases fc : c.month = 2 ∧ c.day = C
        · have htc := q1 fc
          by_cases h31 : b.day = 31
          · have := p7 h31 (by clear p1 p2 p8 p9 p10 q1 q2 q8 q9 q10; omega)
            clear p1 p2 p8 p9 p10 q1 q2 q8 q9 q10; omega
          · have := p9 (by clear p1 p2 p8 p9 p10 q1 q2 q8 q9 q10; omega) fa
            clear p1 p2 p8 p9 p10 q1 q2 q8 q9 q10; omega
        · have htc := q2 fc
          by_cases h31 : b.day = 31
          · clear p1 p2 p8 p9 p10 q1 q2 q8 q9 q10; omega
          · have := p9 (by clear p1 p2 p8 p9 p10 q1 q2 q8 q9 q10; omega) fa
            have := q9 (by clear p1 p2 p8 p9 p10 q1 q2 q8 q9 q10; omega) fc
            clear p1 p2 p8 p9 p10 q1 q2 q8 q9 q10; omega
      clear p1 p2 p8 p9 p10 q1 q2 q8 q9 q10
      omega
    · have hm : 1 ≤ 12 * (c.year - a.year) + ((c.month : Int) - a.month) := by
        clear p1 p2 p3 p4 p5 p6 p7 p8 p9 p10 q1 q2 q3 q4 q5 q6 q7 q8 q9 q10
        omega
      have hst : (e : Int) - g + 30 + (t - s) ≥ 0 := by
        by_cases hg : b.day < g
        · obtain ⟨g30, g2, g3, g4, g5⟩ := q8 hg
          have := q1 ⟨g2, g3⟩
          clear p1 p2 p8 p9 p10 q1 q2 q8 q9 q10; omega
        · clear p1 p2 p8 p9 p10 q1 q2 q8 q9 q10 key h; omega
      clear p1 p2 p3 p4 p5 p6 p7 p8 p9 p10 q1 q2 q3 q4 q5 q6 q7 q8 q9 q10 key h
      linarith
  · subst h; exact le_refl _

theorem us30_self {a : Date} (ha : a.Valid) : us30 a a = 0 := by
  unfold us30 count360
  have la := month_length a.year ha.1 ha.2.1
  simp only [isLast_iff ha]
  have a4 := ha.2.2.2
  generalize daysInMonth a.year a.month = A at *
  split_ifs <;> omega

theorem daysBetween_range {p s q : Date} (hp : p.Valid) (hs : s.Valid) (hq : q.Valid) (h1 : p.le s) (h2 : s.le q)
    (basis : Int) : 0 ≤ daysBetween s q basis ∧ daysBetween s q basis ≤ daysBetween p q basis := by
  unfold daysBetween
  split
  · have := us30_anti hs hq hq h2
    rw [us30_self hq] at this
    exact ⟨this, us30_anti hp hs hq h1⟩
  · split
    · have m1 := (days360_mono hs hs hq h2 true).2 (Or.inr rfl)
      have m2 := (days360_mono hs hq hq (Or.inr rfl) true).2 h2
      have e1 := (european_count p s q).1
      have m3 := (days360_mono hp hs hs (Or.inr rfl) true).2 h1
      rw [← (european_count s q q).2.2, ← (european_count p q q).2.2]
      exact ⟨m2, by omega⟩
    · have := (dayNumber_le_iff hp hs).2 h1
      have := (dayNumber_le_iff hs hq).2 h2
      unfold actual
      omega

/-- The part of the period still to come is between nothing and the whole, whatever the
basis. -/
theorem share_range {p s q : Date} (hp : p.Valid) (hs : s.Valid) (hq : q.Valid) (h1 : p.le s) (h2 : s.le q)
    (basis : Int) : 0 ≤ share s p q basis ∧ share s p q basis ≤ 1 ∧ share q p q basis = 0 := by
  obtain ⟨r1, r2⟩ := daysBetween_range hp hs hq h1 h2 basis
  have hz : daysBetween q q basis = 0 := by
    unfold daysBetween
    split
    · exact us30_self hq
    · split
      · unfold eu30 count360; omega
      · unfold actual; omega
  unfold share
  split
  · rename_i h
    have h' : (0 : ℝ) < daysBetween p q basis := by exact_mod_cast h
    refine ⟨div_nonneg (by exact_mod_cast r1) h'.le, ?_, by rw [hz]; simp⟩
    rw [div_le_one h']
    exact_mod_cast r2
  · exact ⟨le_refl _, zero_le_one, rfl⟩

/-- **C110** (10): for a bond that matures on a day up to the 28th, `PRICE` discounts the
coupons due on the settlement or later, over a part of a period between nothing and the
whole, and takes off the rest of the running coupon. -/
theorem price_partial {S M : Date} (hS : S.Valid) (hM : M.Valid) (h28 : M.day ≤ 28) (hSM : S.lt M) {freq : Nat}
    (hfr : freq = 1 ∨ freq = 2 ∨ freq = 4) (hS0 : 12 ≤ S.monthIndex) (hM1 : M.monthIndex + 12 ≤ 12 * 200000)
    {fuel : Nat} (hf : M.monthIndex - S.monthIndex + 13 < fuel) {rate yld red : ℝ} (hr : 0 ≤ rate) (hy : 0 ≤ yld)
    (hred : 0 < red) {basis : Int} (hb : 0 ≤ basis ∧ basis ≤ 4) :
    ∃ n prev next, Coupon M (12 / freq) (n + 1) prev ∧ Coupon M (12 / freq) n next ∧ prev.lt S ∧ S.le next ∧
      (0 ≤ share S prev next basis ∧ share S prev next basis ≤ 1) ∧
      price S M rate yld red freq basis fuel = some (priceOf (n + 1) (share S prev next basis) rate yld red freq) := by
  obtain ⟨n, c1, c2, c3, c4, c5, -⟩ := coupons_partial hS hM h28 hSM (m := 12 / freq)
    (by rcases hfr with h | h | h <;> subst h <;> decide) (by rcases hfr with h | h | h <;> subst h <;> decide) hS0 hM1 hf
  refine ⟨n, _, _, c2, c3, c4, c5, ?_, ?_⟩
  · have := share_range c2.valid hS c3.valid (Or.inl c4) c5 basis
    exact ⟨this.1, this.2.1⟩
  · unfold price
    rw [if_neg (by push Not; exact ⟨hr, hy, hred⟩), if_neg (by omega), if_neg (by omega),
      if_neg (not_le_iff.2 hSM), c1]

/-- **C110** (5): settled on a coupon date, a bond that yields its own rate costs 100. -/
theorem price_par {n : Nat} (hn : 1 ≤ n) {rate freq : ℝ} (hr : 0 ≤ rate) (hf : 0 < freq) :
    priceOf n 0 rate rate 100 freq = 100 := by
  unfold priceOf
  split
  · simp
  · set q := 1 + rate / freq with hq
    have h1 : 1 ≤ q := by
      have : 0 ≤ rate / freq := div_nonneg hr hf.le
      rw [hq]; linarith
    have hc : 100 * rate / freq = 100 * (q - 1) := by rw [hq]; ring
    rw [hc, Real.rpow_zero]
    have key : ∀ m : Nat, (∑ k ∈ Finset.range (m + 1), 100 * (q - 1) / (1 * q ^ k)) + 100 / (1 * q ^ m) = 100 * q := by
      intro m
      induction m with
      | zero => simp; ring
      | succ m ih =>
        rw [Finset.sum_range_succ]
        have e : 100 * (q - 1) / (1 * q ^ (m + 1)) + 100 / (1 * q ^ (m + 1)) = 100 / (1 * q ^ m) := by
          have : q ^ m ≠ 0 := pow_ne_zero _ (by linarith)
          have hq0 : q ≠ 0 := by linarith
          rw [pow_succ]
          field_simp
          ring
        linarith
    obtain ⟨m, rfl⟩ : ∃ m, n = m + 1 := ⟨n - 1, by omega⟩
    have := key m
    simp only [Nat.add_sub_cancel]
    linarith

/-- **C110** (6): the higher the yield, the lower the price, so that a price belongs to one
yield at most. -/
theorem price_anti {n : Nat} (hn : 1 ≤ n) {dsn rate red freq y z : ℝ} (hd : 0 ≤ dsn) (hd1 : n = 1 → 0 < dsn) (hr : 0 ≤ rate)
    (hred : 0 < red) (hf : 0 < freq) (hy : 0 ≤ y) (hyz : y < z) :
    priceOf n dsn rate z red freq < priceOf n dsn rate y red freq := by
  have hc : 0 ≤ 100 * rate / freq := div_nonneg (by linarith) hf.le
  have hyf : 0 ≤ y / freq := div_nonneg hy hf.le
  have hlt : y / freq < z / freq := div_lt_div_of_pos_right hyz hf
  unfold priceOf
  split
  · rename_i h1
    have hp := hd1 h1
    have hpos : 0 < 1 + dsn * (y / freq) := by have := mul_nonneg hd hyf; linarith
    have hl : 1 + dsn * (y / freq) < 1 + dsn * (z / freq) := by
      have := mul_lt_mul_of_pos_left hlt hp
      linarith
    have : (red + 100 * rate / freq) / (1 + dsn * (z / freq)) < (red + 100 * rate / freq) / (1 + dsn * (y / freq)) :=
      div_lt_div_of_pos_left (by linarith) hpos hl
    linarith
  · rename_i h1
    set a := 1 + y / freq with ha
    set b := 1 + z / freq with hb
    have a1 : 0 < a := by rw [ha]; linarith
    have ab : a < b := by rw [ha, hb]; linarith
    have d1 : 0 < a ^ dsn := Real.rpow_pos_of_pos a1 _
    have d2 : a ^ dsn ≤ b ^ dsn := Real.rpow_le_rpow a1.le ab.le hd
    have hle : ∀ k : Nat, a ^ dsn * a ^ k ≤ b ^ dsn * b ^ k := fun k =>
      mul_le_mul d2 (pow_le_pow_left₀ a1.le ab.le k) (pow_nonneg a1.le _) (le_trans d1.le d2)
    have hpk : ∀ k : Nat, 0 < a ^ dsn * a ^ k := fun k => mul_pos d1 (pow_pos a1 k)
    have s1 : ∑ k ∈ Finset.range n, 100 * rate / freq / (b ^ dsn * b ^ k) ≤
        ∑ k ∈ Finset.range n, 100 * rate / freq / (a ^ dsn * a ^ k) :=
      Finset.sum_le_sum fun k _ => div_le_div_of_nonneg_left hc (hpk k) (hle k)
    have hstrict : a ^ dsn * a ^ (n - 1) < b ^ dsn * b ^ (n - 1) := by
      have hpw : a ^ (n - 1) < b ^ (n - 1) := pow_lt_pow_left₀ ab a1.le (by omega)
      have := mul_le_mul_of_nonneg_right d2 (pow_nonneg a1.le (n - 1))
      have h2 := mul_lt_mul_of_pos_left hpw (lt_of_lt_of_le d1 d2)
      linarith
    have s2 : red / (b ^ dsn * b ^ (n - 1)) < red / (a ^ dsn * a ^ (n - 1)) :=
      div_lt_div_of_pos_left hred (hpk _) hstrict
    linarith

/-- The loop of `calculate_yield` for a price `f`: 845-905. -/
noncomputable def yieldLoop (f : ℝ → ℝ) (target : ℝ) : Nat → ℝ → Option ℝ
  | 0, y => if |f y - target| < 0.01 then some y else none
  | n + 1, y =>
    if |f y - target| < 1e-10 then some y
    else if |(f (y + 0.0001) - f y) / 0.0001| < 1e-10 then none
    else
      let w := y - (f y - target) / ((f (y + 0.0001) - f y) / 0.0001)
      let v := if w < -0.99 then -0.99 else w
      yieldLoop f target n (if 10 < v then 10 else v)

/-- `calculate_yield`: 830-905. -/
noncomputable def yieldOf (f : ℝ → ℝ) (target rate : ℝ) : Option ℝ :=
  yieldLoop f target 100 (if rate = 0 then 0.05 else rate)

/-- **C110** (7): a yield that is found has the price asked for, to less than a hundredth;
and a bond that costs what it would at its own rate yields that rate. -/
theorem yield_price (f : ℝ → ℝ) (target rate : ℝ) :
    (∀ y, yieldOf f target rate = some y → |f y - target| < 0.01) ∧
      (rate ≠ 0 → f rate = target → yieldOf f target rate = some rate) := by
  constructor
  · have : ∀ (n : Nat) (x y : ℝ), yieldLoop f target n x = some y → |f y - target| < 0.01 := by
      intro n
      induction n with
      | zero =>
        intro x y h
        unfold yieldLoop at h
        split at h
        · cases h; assumption
        · cases h
      | succ n ih =>
        intro x y h
        unfold yieldLoop at h
        split at h
        · rename_i hx
          cases h
          refine lt_trans hx ?_
          norm_num
        · split at h
          · cases h
          · exact ih _ _ h
    exact fun y => this 100 _ y
  · intro h0 h
    unfold yieldOf
    rw [if_neg h0]
    unfold yieldLoop
    rw [if_pos]
    rw [h, sub_self, abs_zero]
    norm_num

/-! ## Bills -/

/-- Whether the dates of a bill are accepted: 983-995, 1105-1117, 1203-1215. -/
def billDays (S M : Date) : Option Int :=
  if M.le S then none else if 365 < actual S M ∨ actual S M ≤ 0 then none else some (actual S M)

/-- `TBILLPRICE`: 1096-1120. -/
noncomputable def billPrice (S M : Date) (discount : ℝ) : Option ℝ :=
  if discount ≤ 0 then none else (billDays S M).map fun n => 100 * (1 - discount * n / 360)

/-- `TBILLYIELD`: 1194-1218. -/
noncomputable def billYield (S M : Date) (pr : ℝ) : Option ℝ :=
  if pr ≤ 0 then none else (billDays S M).map fun n => (100 - pr) / pr * (360 / n)

/-- `TBILLEQ`: 975-1012. -/
noncomputable def billEq (S M : Date) (discount : ℝ) : Option ℝ :=
  if discount ≤ 0 then none
  else
    match billDays S M with
    | none => none
    | some n =>
      if (n : ℝ) ≤ 182 then some (365 * discount / (360 - discount * n))
      else
        let p := 1 - discount * n / 360
        let a := (n : ℝ) / 365
        let inner := a * a - (2 * a - 1) * (1 - 1 / p)
        if inner < 0 then none else some ((-2 * a + 2 * Real.sqrt inner) / (2 * a - 1))

/-- **C110** (8): the yield of a bill at its price is what it pays more than it costs, per 360
days; up to half a year `TBILLEQ` is the same yield per 365 days. -/
theorem bill_yield {S M : Date} {n : Int} (hn : billDays S M = some n) {discount : ℝ} (h0 : 0 < discount)
    (h1 : discount * n < 360) :
    ∃ p y, billPrice S M discount = some p ∧ billYield S M p = some y ∧ p * (1 + y * n / 360) = 100 ∧
      (n ≤ 182 → billEq S M discount = some (y * 365 / 360)) := by
  have hpos : (0 : ℝ) < n := by
    unfold billDays at hn
    split at hn
    · cases hn
    · split at hn
      · cases hn
      · cases hn
        have : 0 < actual S M := by omega
        exact_mod_cast this
  have hp : 0 < 1 - discount * n / 360 := by linarith
  refine ⟨100 * (1 - discount * n / 360),
    (100 - 100 * (1 - discount * n / 360)) / (100 * (1 - discount * n / 360)) * (360 / n), ?_, ?_, ?_, ?_⟩
  · unfold billPrice
    rw [if_neg (by linarith), hn]
    rfl
  · unfold billYield
    rw [if_neg (by linarith), hn]
    rfl
  · have e : 360 - discount * n ≠ 0 := by linarith
    have e2 : 1 - discount * n / 360 = (360 - discount * n) / 360 := by ring
    rw [e2]
    field_simp
    ring
  · intro h182
    unfold billEq
    rw [if_neg (by linarith), hn]
    simp only
    have : (n : ℝ) ≤ 182 := by exact_mod_cast h182
    rw [if_pos this]
    congr 1
    have e : 360 - discount * n ≠ 0 := by linarith
    have e2 : 1 - discount * n / 360 = (360 - discount * n) / 360 := by ring
    rw [e2]
    field_simp
    ring

/-- **C110** (9): beyond half a year `TBILLEQ` is the yield of a bond that pays once after
half a year: the price grows to the whole by simple interest in two steps. -/
theorem bill_long {S M : Date} {n : Int} (hn : billDays S M = some n) {discount : ℝ} (h0 : 0 < discount)
    (h1 : discount * n < 360) (hl : 182 < n) :
    ∃ y, billEq S M discount = some y ∧ 0 ≤ y ∧
      (1 - discount * n / 360) * ((1 + y / 2) * (1 + ((n : ℝ) / 365 - 1 / 2) * y)) = 1 := by
  have hl' : (183 : ℝ) ≤ n := by exact_mod_cast (show (183 : Int) ≤ n by omega)
  have hp : 0 < 1 - discount * n / 360 := by linarith
  have hp1 : 1 - discount * n / 360 < 1 := by
    have : 0 < discount * n := mul_pos h0 (by linarith)
    linarith
  set p := 1 - discount * n / 360 with hpd
  set a := (n : ℝ) / 365 with had
  have ha : 0 < 2 * a - 1 := by rw [had]; linarith
  have hq : 1 - 1 / p < 0 := by
    have := one_lt_one_div hp hp1
    linarith
  have hi : a * a ≤ a * a - (2 * a - 1) * (1 - 1 / p) := by
    have := mul_neg_of_pos_of_neg ha hq
    linarith
  have ha0 : 0 < a := by linarith
  have hi0 : 0 ≤ a * a - (2 * a - 1) * (1 - 1 / p) := le_trans (mul_self_nonneg a) hi
  refine ⟨(-2 * a + 2 * Real.sqrt (a * a - (2 * a - 1) * (1 - 1 / p))) / (2 * a - 1), ?_, ?_, ?_⟩
  · unfold billEq
    rw [if_neg (by linarith), hn]
    simp only
    rw [if_neg (by linarith), if_neg (by rw [← hpd, ← had]; linarith)]
  · apply div_nonneg _ ha.le
    have : a ≤ Real.sqrt (a * a - (2 * a - 1) * (1 - 1 / p)) := Real.le_sqrt_of_sq_le (by nlinarith)
    linarith
  · set s := Real.sqrt (a * a - (2 * a - 1) * (1 - 1 / p)) with hs
    have hs2 : s * s = a * a - (2 * a - 1) * (1 - 1 / p) := Real.mul_self_sqrt hi0
    set D := 2 * a - 1 with hD
    have haD : a = (D + 1) / 2 := by rw [hD]; ring
    have e : (1 + (-2 * a + 2 * s) / D / 2) * (1 + (a - 1 / 2) * ((-2 * a + 2 * s) / D)) = 1 / p := by
      have e1 : (1 + (-2 * a + 2 * s) / D / 2) = (D - a + s) / D := by field_simp; ring
      have e2 : (1 + (a - 1 / 2) * ((-2 * a + 2 * s) / D)) = 1 - a + s := by
        have : a - 1 / 2 = D / 2 := by rw [hD]; ring
        rw [this]; field_simp; ring
      rw [e1, e2, div_mul_eq_mul_div, div_eq_iff ha.ne']
      have : (D - a + s) * (1 - a + s) = D * (1 - a) - a * (1 - a) + s * (D - a + 1 - a) + s * s := by ring
      rw [this, hs2]
      have : D - a + 1 - a = 0 := by rw [hD]; ring
      rw [this]
      have : D * (1 - a) - a * (1 - a) = D - a * a := by rw [hD]; ring
      rw [this]
      ring
    rw [e]
    field_simp

/-- A bill of one year is refused when the year has a 29th of February in it. -/
theorem bill_leap_refused : actual ⟨2024, 1, 15⟩ ⟨2025, 1, 15⟩ = 366 ∧ billDays ⟨2024, 1, 15⟩ ⟨2025, 1, 15⟩ = none ∧
    billDays ⟨2025, 1, 15⟩ ⟨2026, 1, 15⟩ = some 365 := by decide

/-- **C109**: what `PRICE` refuses. -/
theorem price_refuses (S M : Date) (rate yld redemption : ℝ) (freq : Nat) (basis : Int) (fuel : Nat) :
    price S M rate yld redemption freq basis fuel = none ↔
      rate < 0 ∨ yld < 0 ∨ redemption ≤ 0 ∨ freq ∉ [1, 2, 4] ∨ basis < 0 ∨ 4 < basis ∨ M.le S := by
  unfold price
  by_cases h1 : rate < 0 ∨ yld < 0 ∨ redemption ≤ 0
  · rw [if_pos h1]
    refine ⟨fun _ => ?_, fun _ => rfl⟩
    rcases h1 with h | h | h
    · exact Or.inl h
    · exact Or.inr (Or.inl h)
    · exact Or.inr (Or.inr (Or.inl h))
  rw [if_neg h1]
  by_cases h2 : freq ≠ 1 ∧ freq ≠ 2 ∧ freq ≠ 4
  · rw [if_pos h2]
    exact ⟨fun _ => Or.inr (Or.inr (Or.inr (Or.inl (by simpa using h2)))), fun _ => rfl⟩
  rw [if_neg h2]
  by_cases h3 : ¬(0 ≤ basis ∧ basis ≤ 4)
  · rw [if_pos h3]
    refine ⟨fun _ => Or.inr (Or.inr (Or.inr (Or.inr ?_))), fun _ => rfl⟩
    by_cases h : basis < 0
    · exact Or.inl h
    · exact Or.inr (Or.inl (by omega))
  rw [if_neg h3]
  by_cases h4 : M.le S
  · rw [if_pos h4]
    exact ⟨fun _ => Or.inr (Or.inr (Or.inr (Or.inr (Or.inr (Or.inr h4))))), fun _ => rfl⟩
  · rw [if_neg h4]
    refine ⟨fun h => (Option.some_ne_none _ h).elim, ?_⟩
    rintro (h | h | h | h | h | h | h)
    · exact absurd (Or.inl h) h1
    · exact absurd (Or.inr (Or.inl h)) h1
    · exact absurd (Or.inr (Or.inr h)) h1
    · exact absurd (by simpa using h) h2
    · omega
    · omega
    · exact absurd h h4

end Verif.Days

import Verif.Round.Props
import Mathlib.Data.Nat.Choose.Basic
import Mathlib.Data.Nat.Factorial.BigOperators
import Mathlib.Data.Nat.Factorial.DoubleFactorial

/-!
# Divisors and counting
-/

namespace Verif.Round

/-! ## Divisors -/

theorem gcd_eq (a b : ℕ) : gcd a b = Nat.gcd a b := by
  induction b using Nat.strong_induction_on generalizing a with
  | _ b ih =>
    unfold gcd
    split
    · rename_i h
      rw [h, Nat.gcd_zero_right]
    · rename_i h
      rw [ih _ (Nat.mod_lt _ (by omega)), Nat.gcd_comm b, ← Nat.gcd_rec, Nat.gcd_comm]

/-- An argument GCD and LCM accept. -/
def Ok (q : ℚ) : Prop := 0 ≤ tr q ∧ tr q ≤ 9999999990

theorem gcdArg_ok {q : ℚ} (h : Ok q) : gcdArg q = some (tr q).toNat := if_pos h

theorem gcdArg_bad {q : ℚ} (h : ¬Ok q) : gcdArg q = none := if_neg h

theorem dvd_toNat {d : ℕ} {z : ℤ} (hz : 0 ≤ z) : d ∣ z.toNat ↔ (d : ℤ) ∣ z := by
  rw [← Int.natCast_dvd_natCast, Int.toNat_of_nonneg hz]

theorem toNat_dvd {d : ℕ} {z : ℤ} (hz : 0 ≤ z) : z.toNat ∣ d ↔ z ∣ (d : ℤ) := by
  rw [← Int.natCast_dvd_natCast, Int.toNat_of_nonneg hz]

theorem gcd_loop (args : List ℚ) (h : ∀ q ∈ args, Ok q) (r : ℕ) :
    ∃ g : ℕ, args.foldlM gcdStep (some r) = some (some g) ∧ ∀ d : ℕ, d ∣ g ↔ d ∣ r ∧ ∀ q ∈ args, (d : ℤ) ∣ tr q := by
  induction args generalizing r with
  | nil => exact ⟨r, rfl, by simp⟩
  | cons q qs ih =>
    have hq := h q (by simp)
    obtain ⟨g, e, hg⟩ := ih (fun x hx => h x (by simp [hx])) (gcd r (tr q).toNat)
    refine ⟨g, ?_, ?_⟩
    · rw [List.foldlM_cons, gcdStep, gcdArg_ok hq]
      exact e
    · intro d
      rw [hg, gcd_eq, Nat.dvd_gcd_iff, dvd_toNat hq.1]
      simp [and_assoc]

/-- C89.  GCD gives the greatest common divisor: what divides it is what divides every number. -/
theorem gcd_spec (args : List ℚ) (h : ∀ q ∈ args, Ok q) : ∃ g : ℕ, GCD args = some g ∧ ∀ d : ℕ, d ∣ g ↔ ∀ q ∈ args, (d : ℤ) ∣ tr q := by
  cases args with
  | nil => exact ⟨0, rfl, by simp⟩
  | cons q qs =>
    have hq := h q (by simp)
    obtain ⟨g, e, hg⟩ := gcd_loop qs (fun x hx => h x (by simp [hx])) (tr q).toNat
    refine ⟨g, ?_, ?_⟩
    · unfold GCD
      rw [List.foldlM_cons, gcdStep, gcdArg_ok hq]
      change Option.map _ (List.foldlM _ (some (tr q).toNat) qs) = _
      rw [e]
      rfl
    · intro d
      rw [hg, dvd_toNat hq.1]
      simp

theorem gcd_loop_err (args : List ℚ) (h : ∃ q ∈ args, ¬Ok q) (r : Option ℕ) :
    args.foldlM gcdStep r = none := by
  induction args generalizing r with
  | nil => simp at h
  | cons q qs ih =>
    rw [List.foldlM_cons, gcdStep]
    by_cases hq : Ok q
    · rw [gcdArg_ok hq]
      refine ih ?_ _
      obtain ⟨x, hx, hb⟩ := h
      rcases List.mem_cons.mp hx with rfl | hx
      · exact absurd hq hb
      · exact ⟨x, hx, hb⟩
    · rw [gcdArg_bad hq]
      rfl

/-- C89.  Any number out of range makes GCD an error. -/
theorem gcd_error (args : List ℚ) (h : ∃ q ∈ args, ¬Ok q) : GCD args = none := by
  unfold GCD
  rw [gcd_loop_err args h]
  rfl

theorem lcm_eq {a b m : ℕ} (checks : Bool) (h : lcm true a b = some m) : m = Nat.lcm a b ∧ lcm checks a b = some m := by
  unfold lcm at h ⊢
  rw [gcd_eq] at h ⊢
  split at h
  · rename_i h0
    rw [if_pos h0]
    have : m = 0 := (Option.some.inj h).symm
    subst this
    rcases h0 with rfl | rfl <;> simp
  · rename_i h0
    rw [if_neg h0]
    split at h
    · rename_i h1
      rw [if_pos h1]
      have : a / a.gcd b * b = m := Option.some.inj h
      refine ⟨?_, by rw [this]⟩
      rw [← this, Nat.lcm, Nat.div_mul_right_comm (Nat.gcd_dvd_left a b)]
    · simp at h

theorem lcm_loop (args : List ℚ) (h : ∀ q ∈ args, Ok q) (r m : ℕ) (he : lcmLoop true args (some r) = .num m) : lcmLoop false args (some r) = .num m ∧ ∀ d : ℕ, m ∣ d ↔ r ∣ d ∧ ∀ q ∈ args, tr q ∣ (d : ℤ) := by
  induction args generalizing r with
  | nil =>
    have : r = m := by simpa [lcmLoop] using he
    subst this
    exact ⟨rfl, by simp⟩
  | cons q qs ih =>
    have hq := h q (by simp)
    simp only [lcmLoop, gcdArg_ok hq] at he ⊢
    cases hl : lcm true r (tr q).toNat with
    | none => simp [hl] at he
    | some x =>
      simp only [hl] at he
      obtain ⟨e1, e2⟩ := lcm_eq false hl
      simp only [e2]
      obtain ⟨i1, i2⟩ := ih (fun x hx => h x (by simp [hx])) x he
      refine ⟨i1, fun d => ?_⟩
      rw [i2, e1, Nat.lcm_dvd_iff, toNat_dvd hq.1]
      simp [and_assoc]

/-- C89.  Where LCM does not overflow, it gives the least common multiple: it divides what every number divides.  A release build then gives the same. -/
theorem lcm_spec (args : List ℚ) (hne : args ≠ []) (h : ∀ q ∈ args, Ok q) (m : ℕ) (he : LCM true args = .num m) : LCM false args = .num m ∧ ∀ d : ℕ, m ∣ d ↔ ∀ q ∈ args, tr q ∣ (d : ℤ) := by
  cases args with
  | nil => exact absurd rfl hne
  | cons q qs =>
    have hq := h q (by simp)
    unfold LCM at *
    simp only [lcmLoop, gcdArg_ok hq] at he ⊢
    obtain ⟨i1, i2⟩ := lcm_loop qs (fun x hx => h x (by simp [hx])) _ m he
    refine ⟨i1, fun d => ?_⟩
    rw [i2, toNat_dvd hq.1]
    simp

theorem lcm_fits_loop (args : List ℚ) (h : ∀ q ∈ args, Ok q) (L : ℕ) (hL : 0 < L) (hb : L < 2 ^ 64) (hd : ∀ q ∈ args, tr q ∣ (L : ℤ)) (r : ℕ) (hr : r ∣ L) : ∃ m, lcmLoop true args (some r) = .num m := by
  induction args generalizing r with
  | nil => exact ⟨r, rfl⟩
  | cons q qs ih =>
    have hq := h q (by simp)
    have hqL : (tr q).toNat ∣ L := (toNat_dvd hq.1).mpr (hd q (by simp))
    have hdv : Nat.lcm r (tr q).toNat ∣ L := Nat.lcm_dvd hr hqL
    have hlt : Nat.lcm r (tr q).toNat < 2 ^ 64 := lt_of_le_of_lt (Nat.le_of_dvd hL hdv) hb
    have hl : lcm true r (tr q).toNat = some (Nat.lcm r (tr q).toNat) := by
      unfold lcm
      rw [gcd_eq]
      split
      · rename_i h0
        rcases h0 with h0 | h0 <;> simp [h0]
      · have e : r / r.gcd (tr q).toNat * (tr q).toNat = r.lcm (tr q).toNat := Nat.div_mul_right_comm (Nat.gcd_dvd_left r _) _
        rw [e]
        exact if_pos hlt
    simp only [lcmLoop, gcdArg_ok hq, hl]
    exact ih (fun x hx => h x (by simp [hx])) (fun x hx => hd x (by simp [hx])) _ hdv

/-- C89.  It does not overflow if the numbers have a common multiple below 2^64. -/
theorem lcm_fits (args : List ℚ) (h : ∀ q ∈ args, Ok q) (L : ℕ) (hL : 0 < L) (hb : L < 2 ^ 64) (hd : ∀ q ∈ args, tr q ∣ (L : ℤ)) : ∃ m, LCM true args = .num m := by
  cases args with
  | nil => exact ⟨0, rfl⟩
  | cons q qs =>
    have hq := h q (by simp)
    unfold LCM
    simp only [lcmLoop, gcdArg_ok hq]
    exact lcm_fits_loop qs (fun x hx => h x (by simp [hx])) L hL hb (fun x hx => hd x (by simp [hx])) _ ((toNat_dvd hq.1).mpr (hd q (by simp)))

theorem tr_nat (n : ℕ) : tr (n : ℚ) = n := by
  unfold tr
  rw [if_pos (by positivity)]
  simp

example : (∀ q ∈ [(4 : ℚ), 6], Ok q) ∧ ∀ q ∈ [(4 : ℚ), 6], tr q ∣ ((12 : ℕ) : ℤ) := by
  have h4 : tr 4 = 4 := tr_nat 4
  have h6 : tr 6 = 6 := tr_nat 6
  constructor
  · intro q hq
    simp only [List.mem_cons, List.not_mem_nil, or_false] at hq
    rcases hq with rfl | rfl
    · rw [Ok, h4]; omega
    · rw [Ok, h6]; omega
  · intro q hq
    simp only [List.mem_cons, List.not_mem_nil, or_false] at hq
    rcases hq with rfl | rfl
    · rw [h4]; norm_num
    · rw [h6]; norm_num

/-- C89.  LCM of two accepted numbers can overflow: a debug build panics, and a release build gives a number that neither divides. -/
theorem lcm_wrong : LCM true [9999999989, 9999999988] = .panic ∧ ∃ m, LCM false [9999999989, 9999999988] = .num m ∧ ¬9999999989 ∣ m ∧ ¬9999999988 ∣ m := by
  have h1 : gcdArg 9999999989 = some 9999999989 := by
    have : tr 9999999989 = 9999999989 := tr_nat 9999999989
    unfold gcdArg
    rw [this]
    rfl
  have h2 : gcdArg 9999999988 = some 9999999988 := by
    have : tr 9999999988 = 9999999988 := tr_nat 9999999988
    unfold gcdArg
    rw [this]
    rfl
  have hg : gcd 9999999989 9999999988 = 1 := by rw [gcd_eq]; decide +kernel
  unfold LCM
  simp only [lcmLoop, h1, h2, lcm, hg]
  norm_num

/-! ## Counting -/

theorem rd_int (z : ℤ) : rd (z : ℚ) = z := by
  unfold rd
  split
  · rw [Int.floor_eq_iff]
    constructor <;> linarith
  · rw [Int.ceil_eq_iff]
    constructor <;> linarith

theorem combinLoop_spec (n c i : ℕ) (h : i + c ≤ n) : combinLoop n c i (n.choose i : ℚ) = some (n.choose (i + c) : ℚ) := by
  induction c generalizing i with
  | zero => rfl
  | succ c ih =>
    rw [combinLoop, if_neg (by omega)]
    have e : (n.choose i : ℚ) * ((n - i : ℕ) : ℚ) / ((i + 1 : ℕ) : ℚ) = n.choose (i + 1) := by
      rw [div_eq_iff (by positivity)]
      exact_mod_cast (Nat.choose_succ_right_eq n i).symm
    rw [e, ih (i + 1) (by omega)]
    congr 3
    omega

theorem combinLoop_choose (n c : ℕ) (h : c ≤ n) : Cnt.of (combinLoop n c 0 1) = .num (n.choose c) := by
  have := combinLoop_spec n c 0 (by omega)
  rw [Nat.choose_zero_right, Nat.cast_one, Nat.zero_add] at this
  rw [this]
  simp only [Cnt.of]
  have h2 := rd_int (n.choose c : ℤ)
  rw [Int.cast_natCast] at h2
  rw [h2, Int.cast_natCast]

/-- C89.  COMBIN gives the number of ways to choose. -/
theorem combin_spec (n k : ℕ) (h : k ≤ n) : COMBIN n k = .num (n.choose k) := by
  unfold COMBIN
  rw [if_neg (by omega), Int.toNat_natCast, combinLoop_choose n _ (by omega)]
  rcases le_total k (n - k) with h1 | h1
  · rw [show (min (k : ℤ) (n - k)).toNat = k by omega]
  · rw [show (min (k : ℤ) (n - k)).toNat = n - k by omega, Nat.choose_symm h]

theorem combin_error (n k : ℤ) : COMBIN n k = .err ↔ n < 0 ∨ k < 0 ∨ k > n := by
  unfold COMBIN
  split
  · simp_all
  · rename_i h
    rw [combinLoop_choose _ _ (by omega)]
    simp [h]

/-- C89.  COMBINA gives the number of ways to choose with repetition, if there is something to choose from. -/
theorem combina_partial (n k : ℕ) (hn : 0 < n) (hb : n + k ≤ 2 ^ 63) : COMBINA n k = .num ((n + k - 1).choose k) := by
  unfold COMBINA
  rw [if_neg (by omega)]
  split
  · rename_i h
    have : k = 0 := by omega
    subst this
    simp
  · have e : asU64 ((n : ℤ) + k - 1) = n + k - 1 := by unfold asU64; omega
    have e2 : combinaRounds n k = min k (n - 1) := by unfold combinaRounds asU64; omega
    rw [e, e2, combinLoop_choose _ _ (by omega)]
    rcases le_total k (n - 1) with h1 | h1
    · rw [min_eq_left h1]
    · rw [min_eq_right h1, ← Nat.choose_symm (by omega : n - 1 ≤ n + k - 1), show n + k - 1 - (n - 1) = k by omega]

theorem combinLoop_broken (n c i : ℕ) (r : ℚ) (h1 : i ≤ n + 1) (h2 : n + 1 < i + c) : combinLoop n c i r = none := by
  induction c generalizing i r with
  | zero => omega
  | succ c ih =>
    rw [combinLoop]
    split
    · rfl
    · exact ih _ _ (by omega) (by omega)

/-- C89.  Nothing chosen from nothing, once or more, should be 0 ways: COMBINA runs through 2^64 - 1 rounds, and in a debug build panics before. -/
theorem combina_zero (k : ℕ) (hk : 0 < k) (hb : k < 2 ^ 63) : combinaRounds 0 k = 2 ^ 64 - 1 ∧ COMBINA 0 k = .broken := by
  have e2 : combinaRounds 0 k = 2 ^ 64 - 1 := by unfold combinaRounds asU64; omega
  refine ⟨e2, ?_⟩
  unfold COMBINA
  rw [if_neg (by omega), if_neg (by omega), e2, combinLoop_broken _ _ _ _ (by omega) (by unfold asU64; omega)]
  rfl

theorem fact_loop (m : ℕ) : ((List.range' 2 m).map fun (i : ℕ) => (i : ℚ)).foldl (· * ·) 1 = ((m + 1).factorial : ℚ) := by
  induction m with
  | zero => simp
  | succ m ih =>
    rw [List.range'_1_concat, List.map_append, List.foldl_append, ih]
    simp only [List.map_cons, List.map_nil, List.foldl_cons, List.foldl_nil]
    rw [Nat.factorial_succ (m + 1)]
    push_cast
    ring

/-- C89.  FACT gives factorials up to 170, and an error otherwise. -/
theorem fact_spec (n : ℤ) : (∀ m : ℕ, n = m → m ≤ 170 → FACT n = some (m.factorial : ℚ)) ∧ (FACT n = none ↔ n < 0 ∨ n > 170) := by
  constructor
  · rintro m rfl hm
    unfold FACT
    rw [if_neg (by omega), fact_loop, Int.toNat_natCast]
    cases m with
    | zero => rfl
    | succ m => rfl
  · unfold FACT
    split <;> simp_all

theorem factDouble_spec (n : ℕ) (r : ℚ) : factDouble n r = r * (n.doubleFactorial : ℚ) := by
  induction n using Nat.strong_induction_on generalizing r with
  | _ n ih =>
    match n with
    | 0 => simp [factDouble]
    | 1 => simp [factDouble]
    | n + 2 =>
      rw [factDouble, ih n (by omega), Nat.doubleFactorial_add_two]
      push_cast
      ring

/-- C89.  FACTDOUBLE gives double factorials. -/
theorem factdouble_spec (n : ℕ) : FACTDOUBLE n = some (n.doubleFactorial : ℚ) := by
  unfold FACTDOUBLE
  rw [if_neg (by omega)]
  split
  · rename_i h
    have : n = 0 := by omega
    subst this
    simp
  · rw [Int.toNat_natCast, factDouble_spec, one_mul]

theorem permut_loop (n k : ℕ) (h : k ≤ n) : (List.range k).foldl (fun (r : ℚ) (i : ℕ) => r * (((n : ℤ) - i : ℤ) : ℚ)) 1 = (n.descFactorial k : ℚ) := by
  induction k with
  | zero => simp
  | succ k ih =>
    rw [List.range_succ, List.foldl_append, ih (by omega), Nat.descFactorial_succ]
    simp only [List.foldl_cons, List.foldl_nil]
    push_cast [Nat.cast_sub (by omega : k ≤ n)]
    ring

/-- C89.  PERMUT gives the number of arrangements. -/
theorem permut_spec (n k : ℕ) (h : k ≤ n) : PERMUT n k = some (n.descFactorial k : ℚ) ∧ (n.descFactorial k) * (n - k).factorial = n.factorial := by
  constructor
  · unfold PERMUT
    rw [if_neg (by omega), Int.toNat_natCast, permut_loop n k h]
  · rw [Nat.mul_comm]
    exact Nat.factorial_mul_descFactorial h

theorem mapM_fact (vs : List ℕ) (h : ∀ v ∈ vs, v ≤ 170) : (vs.map fun (v : ℕ) => (v : ℤ)).mapM FACT = some (vs.map fun (v : ℕ) => (v.factorial : ℚ)) := by
  induction vs with
  | nil => rfl
  | cons v vs ih =>
    rw [List.map_cons, List.mapM_cons, (fact_spec v).1 v rfl (h v (by simp)), ih fun x hx => h x (by simp [hx])]
    rfl

theorem sum_cast (vs : List ℕ) : (vs.map fun (v : ℕ) => (v : ℤ)).sum = (vs.sum : ℤ) := by
  induction vs with
  | nil => rfl
  | cons v vs ih => rw [List.map_cons, List.sum_cons, ih, List.sum_cons, Nat.cast_add]

theorem foldl_prod (l : List ℚ) (a : ℚ) : l.foldl (· * ·) a = a * l.prod := by
  induction l generalizing a with
  | nil => simp
  | cons x l ih => rw [List.foldl_cons, ih, List.prod_cons, mul_assoc]

theorem prod_dvd (vs : List ℕ) : (vs.map Nat.factorial).prod ∣ vs.sum.factorial := by
  induction vs with
  | nil => simp
  | cons v vs ih =>
    rw [List.map_cons, List.prod_cons, List.sum_cons]
    exact (Nat.mul_dvd_mul_left _ ih).trans (Nat.factorial_mul_factorial_dvd_factorial_add _ _)

/-- C89.  MULTINOMIAL gives the multinomial coefficient of numbers whose sum is at most 170. -/
theorem multinomial_spec (vs : List ℕ) (h : vs.sum ≤ 170) : ∃ m : ℕ, MULTINOMIAL (vs.map fun (v : ℕ) => (v : ℤ)) = .num m ∧ m * (vs.map Nat.factorial).prod = vs.sum.factorial := by
  obtain ⟨m, hm⟩ := prod_dvd vs
  refine ⟨m, ?_, by rw [hm, Nat.mul_comm]⟩
  have hpos : 0 < (vs.map Nat.factorial).prod := by
    apply Nat.pos_of_ne_zero
    intro h0
    rw [h0, Nat.zero_mul] at hm
    exact Nat.factorial_ne_zero _ hm
  unfold MULTINOMIAL
  rw [if_neg (by simp), sum_cast, if_neg (by omega), (fact_spec _).1 vs.sum rfl h, mapM_fact vs fun v hv => (List.le_sum_of_mem hv).trans h]
  simp only [foldl_prod, one_mul]
  have e : (vs.map fun (v : ℕ) => (v.factorial : ℚ)).prod = ((vs.map Nat.factorial).prod : ℕ) := by
    rw [Nat.cast_list_prod, List.map_map]
    rfl
  rw [e, hm]
  push_cast
  have h2 : ((vs.map Nat.factorial).prod : ℚ) ≠ 0 := by exact_mod_cast hpos.ne'
  push_cast at h2
  rw [mul_div_cancel_left₀ _ h2]
  have h3 := rd_int (m : ℤ)
  rw [Int.cast_natCast] at h3
  rw [h3, Int.cast_natCast]

example : [2, 3, 4].sum ≤ 170 := by decide

/-- C89.  A negative number among them is an error, whatever the others are. -/
theorem multinomial_negative (vs : List ℤ) (v : ℤ) (hv : v ∈ vs) (h : v < 0) : MULTINOMIAL vs = .err := by
  unfold MULTINOMIAL
  rw [if_pos (List.any_eq_true.mpr ⟨v, hv, decide_eq_true h⟩)]

/-- C89.  Two numbers of 1E19, each truncated to the greatest `i64`, make the sum of MULTINOMIAL overflow. -/
theorem multinomial_wrong : MULTINOMIAL [2 ^ 63 - 1, 2 ^ 63 - 1] = .broken := by
  unfold MULTINOMIAL
  norm_num

end Verif.Round

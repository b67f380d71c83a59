import Verif.Agg.Subtotal
import Verif.Rows.Props
import Mathlib.Tactic.Linarith

/-!
# Laws of aggregates, rows that are hidden, and what fails
-/

namespace Verif.Agg

/-! ### Averages and variances -/

/-- The average lies between the smallest and the largest number. -/
theorem average_between (env : Env) (as : List Arg) (h : Ranges as) {a : Rat} (ha : average env as = .num a) : ∃ l u, minFn env as = .num l ∧ maxFn env as = .num u ∧ l ≤ a ∧ a ≤ u := by
  by_cases he : errs (cellsOf as) = []
  · have h1 := (average_ranges env as h).1 he
    rw [ha] at h1
    by_cases hn : nums (cellsOf as) = []
    · rw [if_pos hn] at h1; cases h1
    · rw [if_neg hn] at h1
      refine ⟨_, _, (min_ranges env as h).1 he, (max_ranges env as h).1 he, ?_⟩
      rw [Out.num.inj h1]
      have hmin := minOf_spec (nums (cellsOf as))
      have hmax := maxOf_spec (nums (cellsOf as))
      cases h3 : minOf (nums (cellsOf as)) with
      | none => rw [h3] at hmin; exact absurd hmin hn
      | some l =>
        cases h4 : maxOf (nums (cellsOf as)) with
        | none => rw [h4] at hmax; exact absurd hmax hn
        | some u =>
          rw [h3] at hmin
          rw [h4] at hmax
          simp only [Option.getD_some]
          have hb := sum_bounds (nums (cellsOf as)) l u fun x hx => ⟨hmin.2 x hx, hmax.2 x hx⟩
          have hpos : (0 : Rat) < ((nums (cellsOf as)).length : Rat) := by
            have : 0 < (nums (cellsOf as)).length := List.length_pos_iff.2 hn
            exact_mod_cast this
          exact ⟨(le_div_iff₀ hpos).2 hb.1, (div_le_iff₀ hpos).2 hb.2⟩
  · obtain ⟨e, _, h1⟩ := (average_ranges env as h).2 he
    rw [ha] at h1
    cases h1

theorem sum_map_sub (qs : List Rat) (m : Rat) : (qs.map fun q => (q - m) * (q - m)).sum = (qs.map fun q => q * q).sum - 2 * m * qs.sum + m * m * qs.length := by
  induction qs with
  | nil => simp
  | cons q qs ih =>
    simp only [List.map_cons, List.sum_cons, List.length_cons, ih]
    push_cast
    ring

theorem sum_sq_nonneg (qs : List Rat) (m : Rat) : 0 ≤ (qs.map fun q => (q - m) * (q - m)).sum := by
  induction qs with
  | nil => simp
  | cons q qs ih =>
    simp only [List.map_cons, List.sum_cons]
    exact add_nonneg (mul_self_nonneg _) ih

/-- The variances by the sums of numbers and of squares: `n² VARP = n Σq² - (Σq)²` and `(n-1) VARS = n VARP`. -/
theorem variance_sums (qs : List Rat) {p : Rat} (hp : variance qs false = some p) :
    p * (qs.length * qs.length) = qs.length * (qs.map fun q => q * q).sum - qs.sum * qs.sum ∧ 0 ≤ p ∧ (2 ≤ qs.length → ∃ s, variance qs true = some s ∧ s * ((qs.length : Rat) - 1) = p * qs.length) := by
  unfold variance at hp
  simp only at hp
  by_cases h0 : qs.length = 0
  · rw [if_pos (by simp [h0])] at hp; cases hp
  · rw [if_neg (by simp [h0])] at hp
    have hn : (qs.length : Rat) ≠ 0 := by exact_mod_cast h0
    have hpos : (0 : Rat) < (qs.length : Rat) := by exact_mod_cast Nat.pos_of_ne_zero h0
    simp only [Bool.false_eq_true, if_false, Option.some.injEq] at hp
    refine ⟨?_, ?_, ?_⟩
    · rw [← hp, sum_map_sub]
      field_simp
      ring
    · rw [← hp]
      exact div_nonneg (sum_sq_nonneg _ _) (le_of_lt hpos)
    · intro h2
      unfold variance
      simp only
      rw [if_neg (by simp; omega)]
      refine ⟨_, rfl, ?_⟩
      simp only [if_true]
      have h1 : (qs.length : Rat) - 1 ≠ 0 := by
        have : (2 : Rat) ≤ (qs.length : Rat) := by exact_mod_cast h2
        intro e
        linarith
      rw [div_mul_cancel₀ _ h1, ← hp, div_mul_cancel₀ _ hn]

/-- Adding a constant to all numbers leaves the variance. -/
theorem variance_shift (qs : List Rat) (c : Rat) (sample : Bool) : variance (qs.map fun q => q + c) sample = variance qs sample := by
  have hs : (qs.map fun q => q + c).sum = qs.sum + c * qs.length := by
    induction qs with
    | nil => simp
    | cons q qs ih =>
      simp only [List.map_cons, List.sum_cons, List.length_cons, ih]
      push_cast
      ring
  unfold variance
  simp only [List.length_map, hs, List.map_map]
  by_cases h : (sample = true ∧ qs.length < 2) ∨ (sample = false ∧ qs.length = 0)
  · rw [if_pos h, if_pos h]
  · rw [if_neg h, if_neg h]
    have h0 : qs.length ≠ 0 := by
      intro e
      cases sample with
      | true => exact h (.inl ⟨rfl, by omega⟩)
      | false => exact h (.inr ⟨rfl, e⟩)
    have hn : (qs.length : Rat) ≠ 0 := by exact_mod_cast h0
    have hm : (qs.sum + c * qs.length) / qs.length = qs.sum / qs.length + c := by rw [add_div, mul_div_cancel_right₀ _ hn]
    have hf : ((fun q => (q - (qs.sum + c * qs.length) / qs.length) * (q - (qs.sum + c * qs.length) / qs.length)) ∘ fun q => q + c) = fun q : Rat => (q - qs.sum / qs.length) * (q - qs.sum / qs.length) := by
      funext q
      simp only [Function.comp_apply, hm]
      ring
    rw [hf]

/-! ### Ranges and values -/

/-- The numbers of an argument: those of its cells, or what the value is as a number. -/
def Arg.numbers (env : Env) : Arg → List Rat
  | .range v _ => nums v.cells
  | .scalar c => (env.coerce c).toList
  | .refErr _ => []

def numbersOf (env : Env) (as : List Arg) : List Rat := as.flatMap (Arg.numbers env)

/-- Ranges and values without errors. -/
inductive Plain : List Arg → Prop
  | nil : Plain []
  | range (v : View) (m : List Bool) {as : List Arg} : v.Ok → errs v.cells = [] → Plain as → Plain (.range v m :: as)
  | scalar (c : Cell) {as : List Arg} : c.isErr = false → Plain as → Plain (.scalar c :: as)

theorem numbersOf_range (env : Env) (v : View) (m : List Bool) (as : List Arg) : numbersOf env (.range v m :: as) = nums v.cells ++ numbersOf env as := rfl
theorem numbersOf_scalar (env : Env) (c : Cell) (as : List Arg) : numbersOf env (.scalar c :: as) = (env.coerce c).toList ++ numbersOf env as := rfl

/-- `SUM` of ranges and values is the sum of all their numbers if each value is a number, otherwise `#VALUE!`. -/
theorem sum_args (env : Env) (as : List Arg) (h : Plain as) : ((∀ c, .scalar c ∈ as → env.coerce c ≠ none) → sum env as = .num (numbersOf env as).sum) ∧
    ((∃ c, .scalar c ∈ as ∧ env.coerce c = none) → sum env as = .err errValue) := by
  have key : ∀ t, ((∀ c, .scalar c ∈ as → env.coerce c ≠ none) → sumFrom env as t = .num (t + (numbersOf env as).sum)) ∧ ((∃ c, .scalar c ∈ as ∧ env.coerce c = none) → sumFrom env as t = .err errValue) := by
    induction h with
    | nil => intro t; simp [sumFrom, numbersOf]
    | @range v m bs hv he _ ih =>
      intro t
      have e : sumFrom env (.range v m :: bs) t = sumFrom env bs (t + (nums v.cells).sum) := by
        simp only [sumFrom, (firstErr_none hv).2 he]
        rw [fold_sum, (nums_perm (slices_perm v hv)).sum_eq]
      rw [e, numbersOf_range, List.sum_append, ← add_assoc]
      refine ⟨fun h => (ih _).1 fun c hc => h c (.tail _ hc), ?_⟩
      rintro ⟨c, hc, h0⟩
      exact (ih _).2 ⟨c, (by simpa using hc), h0⟩
    | @scalar c bs hc _ ih =>
      intro t
      have e : sumFrom env (.scalar c :: bs) t = (match env.coerce c with
          | some q => sumFrom env bs (t + q)
          | none => .err errValue) := by
        cases c <;> first | rfl | cases hc
      rw [e]
      cases hq : env.coerce c with
      | none => exact ⟨fun h => absurd hq (h c (.head _)), fun _ => rfl⟩
      | some q =>
        rw [numbersOf_scalar, hq, Option.toList_some, List.singleton_append, List.sum_cons, ← add_assoc]
        refine ⟨fun h => (ih _).1 fun d hd => h d (.tail _ hd), ?_⟩
        rintro ⟨d, hd, h0⟩
        rcases List.mem_cons.1 hd with e | hd
        · cases e; rw [hq] at h0; cases h0
        · exact (ih _).2 ⟨d, hd, h0⟩
  have := key 0
  rw [zero_add] at this
  exact this

/-- `AVERAGE` leaves out the values that are no numbers. -/
theorem average_args (env : Env) (as : List Arg) (h : Plain as) : average env as = if numbersOf env as = [] then .err errDiv else .num ((numbersOf env as).sum / (numbersOf env as).length) := by
  have key : ∀ t n, averageFrom env as t n = if n + (numbersOf env as).length = 0 then .err errDiv else .num ((t + (numbersOf env as).sum) / ((n + (numbersOf env as).length : Nat) : Rat)) := by
    induction h with
    | nil => intro t n; simp [averageFrom, numbersOf]
    | range v m hv he _ ih =>
      intro t n
      simp only [averageFrom, (firstErr_none hv).2 he]
      rw [fold_sum, fold_length (fun c => (nums c).length) (fun a b => by rw [nums_append, List.length_append]) rfl, ih, (nums_perm (slices_perm v hv)).sum_eq, (nums_perm (slices_perm v hv)).length_eq,
        numbersOf_range, List.sum_append, List.length_append, ← Nat.add_assoc, ← add_assoc]
    | @scalar c bs hc _ ih =>
      intro t n
      have e : averageFrom env (.scalar c :: bs) t n = (match env.coerce c with
          | some q => averageFrom env bs (t + q) (n + 1)
          | none => averageFrom env bs t n) := by
        cases c <;> first | rfl | cases hc
      rw [e, numbersOf_scalar]
      cases hq : env.coerce c with
      | none => simp only; rw [ih]; rfl
      | some q =>
        simp only
        rw [ih, Option.toList_some, List.singleton_append, List.sum_cons, List.length_cons, add_assoc t q]
        have : n + 1 + (numbersOf env bs).length = n + ((numbersOf env bs).length + 1) := by omega
        rw [this]
  have := key 0 0
  rw [Nat.zero_add, zero_add] at this
  have e : ((numbersOf env as).length = 0) = (numbersOf env as = []) := by rw [List.length_eq_zero_iff]
  simp only [e] at this
  exact this

/-- `MAX` and `MIN` too. -/
theorem max_args (env : Env) (as : List Arg) (h : Plain as) : ∃ o, IsMax (numbersOf env as) o ∧ maxFn env as = .num (o.getD 0) := by
  have key : ∀ qs o, IsMax qs o → ∃ o', IsMax (qs ++ numbersOf env as) o' ∧ extremeFrom env maxOf (fun a b => decide (b < a)) as o = .num (o'.getD 0) := by
    induction h with
    | nil => intro qs o ho; exact ⟨o, by simpa [numbersOf] using ho, rfl⟩
    | range v m hv he _ ih =>
      intro qs o ho
      simp only [extremeFrom, (firstErr_none hv).2 he]
      have h1 := fold_isMax v.slices qs o ho
      have h2 : IsMax (qs ++ nums v.cells) (v.slices.foldl (fun mv col => better (fun a b => decide (b < a)) mv (maxOf (nums col))) o) := by
        have hm := maxOf_spec (qs ++ nums v.cells)
        rw [isMax_unique (fun x => by rw [List.mem_append, List.mem_append, (nums_perm (slices_perm v hv)).mem_iff]) h1 hm]
        exact hm
      obtain ⟨o', h3, h4⟩ := ih _ _ h2
      exact ⟨o', by rw [numbersOf_range, ← List.append_assoc]; exact h3, h4⟩
    | @scalar c bs hc _ ih =>
      intro qs o ho
      have e : extremeFrom env maxOf (fun a b => decide (b < a)) (.scalar c :: bs) o = extremeFrom env maxOf (fun a b => decide (b < a)) bs (better (fun a b => decide (b < a)) o (env.coerce c)) := by
        cases c <;> first | rfl | cases hc
      have h1 : IsMax (env.coerce c).toList (env.coerce c) := by
        cases env.coerce c with
        | none => rfl
        | some q => exact ⟨.head _, fun x hx => by rw [List.mem_singleton.1 hx]⟩
      obtain ⟨o', h3, h4⟩ := ih _ _ (better_isMax ho h1)
      exact ⟨o', by rw [numbersOf_scalar, ← List.append_assoc]; exact h3, by rw [e]; exact h4⟩
  exact key [] none rfl

theorem min_args (env : Env) (as : List Arg) (h : Plain as) : ∃ o, IsMin (numbersOf env as) o ∧ minFn env as = .num (o.getD 0) := by
  have key : ∀ qs o, IsMin qs o → ∃ o', IsMin (qs ++ numbersOf env as) o' ∧ extremeFrom env minOf (fun a b => decide (a < b)) as o = .num (o'.getD 0) := by
    induction h with
    | nil => intro qs o ho; exact ⟨o, by simpa [numbersOf] using ho, rfl⟩
    | range v m hv he _ ih =>
      intro qs o ho
      simp only [extremeFrom, (firstErr_none hv).2 he]
      have h1 := fold_isMin v.slices qs o ho
      have h2 : IsMin (qs ++ nums v.cells) (v.slices.foldl (fun mv col => better (fun a b => decide (a < b)) mv (minOf (nums col))) o) := by
        have hm := minOf_spec (qs ++ nums v.cells)
        rw [isMin_unique (fun x => by rw [List.mem_append, List.mem_append, (nums_perm (slices_perm v hv)).mem_iff]) h1 hm]
        exact hm
      obtain ⟨o', h3, h4⟩ := ih _ _ h2
      exact ⟨o', by rw [numbersOf_range, ← List.append_assoc]; exact h3, h4⟩
    | @scalar c bs hc _ ih =>
      intro qs o ho
      have e : extremeFrom env minOf (fun a b => decide (a < b)) (.scalar c :: bs) o = extremeFrom env minOf (fun a b => decide (a < b)) bs (better (fun a b => decide (a < b)) o (env.coerce c)) := by
        cases c <;> first | rfl | cases hc
      have h1 : IsMin (env.coerce c).toList (env.coerce c) := by
        cases env.coerce c with
        | none => rfl
        | some q => exact ⟨.head _, fun x hx => by rw [List.mem_singleton.1 hx]⟩
      obtain ⟨o', h3, h4⟩ := ih _ _ (better_isMin ho h1)
      exact ⟨o', by rw [numbersOf_scalar, ← List.append_assoc]; exact h3, by rw [e]; exact h4⟩
  exact key [] none rfl

/-- `COUNT` counts the numbers of all arguments, but no empty value. -/
theorem count_args (env : Env) (as : List Arg) (h : Plain as) : count env as = .num (numbersOf env (as.filter fun a => decide (a ≠ .scalar .empty))).length := by
  have key : ∀ n, countFrom env as n = .num ((n + (numbersOf env (as.filter fun a => decide (a ≠ .scalar .empty))).length : Nat) : Rat) := by
    induction h with
    | nil => intro n; simp [countFrom, numbersOf]
    | range v m hv he _ ih =>
      intro n
      simp only [countFrom]
      rw [fold_length (fun c => (nums c).length) (fun a b => by rw [nums_append, List.length_append]) rfl, ih, List.filter_cons_of_pos (by simp), numbersOf_range, List.length_append, (nums_perm (slices_perm v hv)).length_eq, Nat.add_assoc]
    | @scalar c bs hc _ ih =>
      intro n
      by_cases h0 : c = .empty
      · subst h0
        rw [List.filter_cons_of_neg (by simp)]
        exact ih n
      · have e : countFrom env (.scalar c :: bs) n = countFrom env bs (if (env.coerce c).isSome = true then n + 1 else n) := by
          cases c <;> first | rfl | exact absurd rfl h0 | cases hc
        rw [e, ih, List.filter_cons_of_pos (by simp [h0]), numbersOf_scalar, List.length_append]
        cases env.coerce c with
        | none => simp
        | some q =>
          simp only [Option.isSome_some, if_true, Option.toList_some, List.length_singleton]
          rw [Nat.add_assoc]
  have := key 0
  rw [Nat.zero_add] at this
  exact this

/-- An error as a value, after arguments without errors, is the result. -/
theorem scalar_error (env : Env) (as bs : List Arg) (h : Plain as) (hc : ∀ c, .scalar c ∈ as → env.coerce c ≠ none) (a : Arg) (e : Err) (ha : a = .scalar (.err e) ∨ a = .refErr e) :
    sum env (as ++ a :: bs) = .err e ∧ average env (as ++ a :: bs) = .err e ∧ maxFn env (as ++ a :: bs) = .err e ∧ minFn env (as ++ a :: bs) = .err e ∧ count env (as ++ a :: bs) = .err e := by
  have key : (∀ t, sumFrom env (as ++ a :: bs) t = .err e) ∧ (∀ t n, averageFrom env (as ++ a :: bs) t n = .err e) ∧ (∀ best gt o, extremeFrom env best gt (as ++ a :: bs) o = .err e) ∧
      ∀ n, countFrom env (as ++ a :: bs) n = .err e := by
    induction h with
    | nil => rcases ha with rfl | rfl <;> exact ⟨fun _ => rfl, fun _ _ => rfl, fun _ _ _ => rfl, fun _ => rfl⟩
    | range v m hv he _ ih =>
      obtain ⟨i1, i2, i3, i4⟩ := ih fun c hm => hc c (.tail _ hm)
      refine ⟨fun t => ?_, fun t n => ?_, fun b g o => ?_, fun n => ?_⟩
      · simp only [List.cons_append, sumFrom, (firstErr_none hv).2 he, i1]
      · simp only [List.cons_append, averageFrom, (firstErr_none hv).2 he, i2]
      · simp only [List.cons_append, extremeFrom, (firstErr_none hv).2 he, i3]
      · simp only [List.cons_append, countFrom, i4]
    | @scalar c cs hce _ ih =>
      obtain ⟨i1, i2, i3, i4⟩ := ih fun d hm => hc d (.tail _ hm)
      have hq := hc c (.head _)
      refine ⟨fun t => ?_, fun t n => ?_, fun b g o => ?_, fun n => ?_⟩
      · cases c <;> first | (cases hce; done) | (simp only [List.cons_append, sumFrom]; split <;> first | exact i1 _ | contradiction)
      · cases c <;> first | (cases hce; done) | (simp only [List.cons_append, averageFrom]; split <;> exact i2 _ _)
      · cases c <;> first | (cases hce; done) | (simp only [List.cons_append, extremeFrom]; exact i3 _ _ _)
      · cases c <;> first | (cases hce; done) | (simp only [List.cons_append, countFrom]; exact i4 _)
  exact ⟨key.1 0, key.2.1 0 0, key.2.2.1 _ _ _, key.2.2.1 _ _ _, key.2.2.2 0⟩

/-- The cells and values that are not empty. -/
def Arg.filled : Arg → List Cell
  | .range v _ => Agg.filled v.cells
  | .scalar c => Agg.filled [c]
  | .refErr _ => []

theorem consumeScalar_plain (env : Env) (op : AggOp) (s : Coll) (c : Cell) (hc : c.isErr = false) : consumeScalar env op false s c = (match op with
    | .countA => if c = .empty then .ok s else .ok { s with counta := s.counta + 1 }
    | .count => if c ≠ .empty ∧ (env.coerce c).isSome = true then .ok { s with values := s.values ++ [0] } else .ok s
    | _ => match env.coerce c with
      | some q => .ok { s with values := s.values ++ [q] }
      | none => .ok s) := by
  cases c <;> first | rfl | cases hc

theorem collect_args (env : Env) (op : AggOp) (as : List Arg) (h : Plain as) (s : Coll) : ∃ t, collect env op false false as s = .ok t ∧ (op ≠ .count → op ≠ .countA → t.values = s.values ++ numbersOf env as) ∧
    (op = .count → t.values.length = s.values.length + (numbersOf env (as.filter fun a => decide (a ≠ .scalar .empty))).length) ∧ (op = .countA → t.counta = s.counta + (as.flatMap Arg.filled).length) := by
  induction h generalizing s with
  | nil => exact ⟨s, rfl, fun _ _ => by simp [numbersOf], fun _ => by simp [numbersOf], fun _ => by simp⟩
  | @range v m bs hv he _ ih =>
    have hr : rangeCells false v m = v.cells := rfl
    obtain ⟨t, h1, h2, h3, h4⟩ := ih { values := s.values ++ nums v.cells, counta := s.counta + counted false v.cells }
    refine ⟨t, ?_, fun a b => ?_, fun a => ?_, fun a => ?_⟩
    · simp only [collect, hr, consumeAll_eq, stop_clear he]
      exact h1
    · rw [h2 a b, numbersOf_range, List.append_assoc]
    · rw [h3 a, List.filter_cons_of_pos (by simp), numbersOf_range, List.length_append, List.length_append, Nat.add_assoc]
    · rw [h4 a, List.flatMap_cons, List.length_append]
      simp [counted, Arg.filled, Nat.add_assoc]
  | @scalar c bs hc _ ih =>
    have hstep : ∃ u, consumeScalar env op false s c = .ok u ∧ (op ≠ .count → op ≠ .countA → u.values = s.values ++ (env.coerce c).toList) ∧
        (op = .count → u.values.length = s.values.length + (if c = .empty then [] else (env.coerce c).toList).length) ∧ (op = .countA → u.counta = s.counta + (filled [c]).length) := by
      have e := consumeScalar_plain env op s c hc
      rw [e]
      by_cases hA : op = .countA
      · subst hA
        by_cases h0 : c = .empty
        · exact ⟨s, if_pos h0, fun _ h => absurd rfl h, fun h => (by cases h), fun _ => by simp [filled, h0]⟩
        · exact ⟨_, if_neg h0, fun _ h => absurd rfl h, fun h => (by cases h), fun _ => by simp [filled, h0]⟩
      · by_cases hC : op = .count
        · subst hC
          by_cases h0 : c ≠ .empty ∧ (env.coerce c).isSome = true
          · obtain ⟨q, hq⟩ := Option.isSome_iff_exists.1 h0.2
            exact ⟨_, if_pos h0, fun h => absurd rfl h, fun _ => by rw [if_neg h0.1, hq]; simp, fun h => by cases h⟩
          · refine ⟨s, if_neg h0, fun h => absurd rfl h, fun _ => ?_, fun h => by cases h⟩
            by_cases h1 : c = .empty
            · rw [if_pos h1]; rfl
            · rw [if_neg h1]
              cases hq : env.coerce c with
              | none => rfl
              | some q => exact absurd ⟨h1, by rw [hq]; rfl⟩ h0
        · cases hq : env.coerce c with
          | none =>
            refine ⟨s, ?_, fun _ _ => by simp, fun h => absurd h hC, fun h => absurd h hA⟩
            cases op <;> first | rfl | contradiction
          | some q =>
            refine ⟨{ s with values := s.values ++ [q] }, ?_, fun _ _ => rfl, fun h => absurd h hC, fun h => absurd h hA⟩
            cases op <;> first | rfl | contradiction
    obtain ⟨u, hu, u2, u3, u4⟩ := hstep
    obtain ⟨t, h1, h2, h3, h4⟩ := ih u
    refine ⟨t, ?_, fun a b => ?_, fun a => ?_, fun a => ?_⟩
    · simp only [collect, hu]
      exact h1
    · rw [h2 a b, u2 a b, numbersOf_scalar, List.append_assoc]
    · rw [h3 a, u3 a]
      by_cases h0 : c = .empty
      · subst h0
        rw [List.filter_cons_of_neg (by simp), if_pos rfl]
        rfl
      · rw [List.filter_cons_of_pos (by simp [h0]), numbersOf_scalar, List.length_append, if_neg h0, Nat.add_assoc]
    · rw [h4 a, u4 a, List.flatMap_cons, List.length_append, Nat.add_assoc]
      rfl

/-- What `SUBTOTAL` is for ranges and values without errors, by its number; values that are no numbers are left out. -/
theorem subtotal_args (env : Env) (as : List Arg) (h : Plain as) : let qs := numbersOf env as
    subtotal env 1 as = (if qs = [] then .err errDiv else .num (qs.sum / qs.length)) ∧ subtotal env 2 as = count env as ∧ subtotal env 3 as = .num (as.flatMap Arg.filled).length ∧
    subtotal env 4 as = maxFn env as ∧ subtotal env 5 as = minFn env as ∧ subtotal env 6 as = (if qs = [] then .num 0 else .num qs.prod) ∧ subtotal env 9 as = .num qs.sum ∧
    (2 ≤ qs.length → ∃ s p, variance qs true = some s ∧ variance qs false = some p ∧
      subtotal env 7 as = .num (env.sqrt s) ∧ subtotal env 8 as = .num (env.sqrt p) ∧ subtotal env 10 as = .num s ∧ subtotal env 11 as = .num p) ∧
    (qs.length < 2 → subtotal env 7 as = .err errDiv ∧ subtotal env 10 as = .err errDiv) ∧ (qs = [] → subtotal env 8 as = .err errDiv ∧ subtotal env 11 as = .err errDiv) := by
  have key : ∀ op, op ≠ .count → op ≠ .countA → ∃ n, aggregateOp env op false false as = finalize env op { values := numbersOf env as, counta := n } := by
    intro op h1 h2
    obtain ⟨t, ht, hv, _⟩ := collect_args env op as h {}
    have hv' := hv h1 h2
    refine ⟨t.counta, ?_⟩
    rw [aggregateOp, ht]
    simp only
    obtain ⟨v, c⟩ := t
    simp only [List.nil_append] at hv'
    rw [hv']
  simp only
  refine ⟨?_, ?_, ?_, ?_, ?_, ?_, ?_, ?_, ?_, ?_⟩
  · obtain ⟨n, e⟩ := key .average (by decide) (by decide)
    exact e
  · obtain ⟨t, ht, _, hc, _⟩ := collect_args env .count as h {}
    rw [count_args env as h]
    have : subtotal env 2 as = aggregateOp env .count false false as := rfl
    rw [this, aggregateOp, ht]
    simp only [finalize, hc rfl, List.length_nil, Nat.zero_add]
  · obtain ⟨t, ht, _, _, hc⟩ := collect_args env .countA as h {}
    have : subtotal env 3 as = aggregateOp env .countA false false as := rfl
    rw [this, aggregateOp, ht]
    simp only [finalize, hc rfl, Nat.zero_add]
  · obtain ⟨n, e⟩ := key .max (by decide) (by decide)
    obtain ⟨o, ho, e'⟩ := max_args env as h
    rw [e', isMax_unique (fun _ => Iff.rfl) ho (maxOf_spec _)]
    exact e
  · obtain ⟨n, e⟩ := key .min (by decide) (by decide)
    obtain ⟨o, ho, e'⟩ := min_args env as h
    rw [e', isMin_unique (fun _ => Iff.rfl) ho (minOf_spec _)]
    exact e
  · obtain ⟨n, e⟩ := key .product (by decide) (by decide)
    exact e
  · obtain ⟨n, e⟩ := key .sum (by decide) (by decide)
    exact e
  · intro h2
    have hs : ∃ s, variance (numbersOf env as) true = some s := ⟨_, by unfold variance; simp only; rw [if_neg (by simp; omega)]⟩
    have hp : ∃ p, variance (numbersOf env as) false = some p := ⟨_, by unfold variance; simp only; rw [if_neg (by simp; intro e; rw [e] at h2; simp at h2)]⟩
    obtain ⟨s, hs⟩ := hs
    obtain ⟨p, hp⟩ := hp
    refine ⟨s, p, hs, hp, ?_, ?_, ?_, ?_⟩
    · obtain ⟨n, e⟩ := key .stdevS (by decide) (by decide)
      refine Eq.trans e ?_
      simp only [finalize, hs]
    · obtain ⟨n, e⟩ := key .stdevP (by decide) (by decide)
      refine Eq.trans e ?_
      simp only [finalize, hp]
    · obtain ⟨n, e⟩ := key .varS (by decide) (by decide)
      refine Eq.trans e ?_
      simp only [finalize, hs]
    · obtain ⟨n, e⟩ := key .varP (by decide) (by decide)
      refine Eq.trans e ?_
      simp only [finalize, hp]
  · intro h2
    have hs : variance (numbersOf env as) true = none := by unfold variance; simp only; rw [if_pos (by simp; omega)]
    constructor
    · obtain ⟨n, e⟩ := key .stdevS (by decide) (by decide)
      refine Eq.trans e ?_
      simp only [finalize, hs]
    · obtain ⟨n, e⟩ := key .varS (by decide) (by decide)
      refine Eq.trans e ?_
      simp only [finalize, hs]
  · intro h2
    have hp : variance (numbersOf env as) false = none := by rw [h2]; rfl
    constructor
    · obtain ⟨n, e⟩ := key .stdevP (by decide) (by decide)
      refine Eq.trans e ?_
      simp only [finalize, hp]
    · obtain ⟨n, e⟩ := key .varP (by decide) (by decide)
      refine Eq.trans e ?_
      simp only [finalize, hp]

/-! ### Rows that are hidden in the sheet -/

/-- After any history of hiding, inserting and deleting rows, a range without its hidden rows has exactly the rows that are hidden neither by hand nor by a filter. -/
theorem keepRows_history (os : List Rows.Op) (hf : Rows.Hid.fitsAll (fun _ _ _ => false) os) (limit sheet start last n : Nat) (hs : start < n) (rows : List (List Cell)) (hr : start + rows.length ≤ last + 1) (hn : start + rows.length ≤ n) :
    keepRows ((Rows.Engine.run {} os).mask limit sheet start last n .neither).2 rows =
      ((rows.zipIdx start).filter fun p => !(Rows.Hid.run (fun _ _ _ => false) os sheet .manual p.2 || Rows.Hid.run (fun _ _ _ => false) os sheet .filter p.2)).map Prod.fst := by
  unfold keepRows
  have hv := Rows.visible_history os hf limit sheet start last n hs
  generalize ((Rows.Engine.run {} os).mask limit sheet start last n .neither).2 = m at hv ⊢
  generalize Rows.Hid.run (fun _ _ _ => false) os = H at hv ⊢
  have key : ∀ (k : Nat) (rs : List (List Cell)), start + k + rs.length ≤ last + 1 → start + k + rs.length ≤ n →
      ((rs.zipIdx k).filter fun p => (m[p.2]?).getD true).map Prod.fst = ((rs.zipIdx (start + k)).filter fun p => !(H sheet .manual p.2 || H sheet .filter p.2)).map Prod.fst := by
    intro k rs
    induction rs generalizing k with
    | nil => intro _ _; rfl
    | cons r rs ih =>
      intro h1 h2
      simp only [List.length_cons] at h1 h2
      have hk := hv k (by omega)
      unfold Rows.visible at hk
      rw [decide_eq_false (by omega), Bool.false_or] at hk
      have ih' := ih (k + 1) (by omega) (by omega)
      rw [← Nat.add_assoc] at ih'
      rw [List.zipIdx_cons, List.zipIdx_cons, List.filter_cons, List.filter_cons]
      simp only [hk]
      split
      · rw [List.map_cons, List.map_cons, ih']
      · exact ih'
  have := key 0 rows (by omega) (by omega)
  rwa [Nat.add_zero] at this

/-! ### Cases that meet the hypotheses -/

def env0 : Env := ⟨fun _ => none, fun q => q⟩

/-- Two chunks, two columns, a text and an empty cell. -/
def view0 : View := ⟨2, [[[.num 1, .text ['a']], [.empty, .num 4]], [[.num 7, .bool true]]], 0⟩

theorem view0_ok : view0.Ok := by
  intro ch hc row hr
  simp only [view0, List.mem_cons, List.not_mem_nil, or_false] at hc
  rcases hc with rfl | rfl
  · simp only [List.mem_cons, List.not_mem_nil, or_false] at hr
    rcases hr with rfl | rfl <;> rfl
  · simp only [List.mem_cons, List.not_mem_nil, or_false] at hr
    subst hr
    rfl

theorem ranges0 (m : List Bool) : Ranges [.range view0 m] := by
  intro a ha
  simp only [List.mem_cons, List.not_mem_nil, or_false] at ha
  exact ⟨view0, m, ha, view0_ok⟩

example : Ranges [.range view0 []] ∧ errs (cellsOf [.range view0 []]) = [] ∧ sum env0 [.range view0 []] = .num 12 ∧ subtotal env0 9 [.range view0 []] = .num 12 ∧ average env0 [.range view0 []] = .num 4 ∧
    count env0 [.range view0 []] = .num 3 ∧ countA [.range view0 []] = .num 5 ∧ maxFn env0 [.range view0 []] = .num 7 ∧ minFn env0 [.range view0 []] = .num 1 ∧ countBlank [.range view0 []] = .num 1 :=
  ⟨ranges0 [], by decide +kernel⟩

example : subtotal env0 109 [.range view0 [true, false, true]] = .num 8 ∧ subtotal env0 9 ([.range view0 [true, false, true]].map Arg.keepVisible) = .num 8 := by decide +kernel

example : variance [1, 4, 7] false = some 6 ∧ variance [1, 4, 7] true = some 9 := by decide +kernel

example : aggregate env0 9 2 [.range ⟨1, [[[.num 3], [.err 7]]], 0⟩ [], .scalar (.err 8)] = .num 3 ∧ aggregate env0 1 2 [.refErr 8] = .err errDiv := by decide +kernel

example : keepRows ((Rows.Engine.run {} [.setRow 0 3 true .manual, .insert 0 0 1]).mask 100 0 3 5 10 .neither).2 [[.num 1], [.num 2], [.num 3]] = [[.num 1], [.num 3]] := by decide +kernel

example : Plain [.range view0 [], .scalar (.bool true), .scalar .empty] ∧ sum env0 [.range view0 [], .scalar (.bool true), .scalar .empty] = .num 13 ∧ count env0 [.range view0 [], .scalar (.bool true), .scalar .empty] = .num 4 ∧
    average env0 [.range view0 [], .scalar .empty] = .num 3 ∧ maxFn env0 [.range view0 [], .scalar (.num 9)] = .num 9 :=
  ⟨.range _ _ view0_ok (by decide +kernel) (.scalar _ rfl (.scalar _ rfl .nil)), by decide +kernel⟩

/-! ### What fails -/

/-- Two cells with errors, the second one further left. -/
def twoErrs : List (List Cell) := [[.num 1, .err 8], [.err 7, .num 2]]

/-- The error of `SUM` depends on the chunks in which the sheet stores the same cells, and `SUM` and `SUBTOTAL(9, …)` of the same range give different errors. -/
theorem error_by_storage : let one : View := ⟨2, [twoErrs], 0⟩
    let two : View := ⟨2, twoErrs.map fun r => [r], 0⟩
    one.Ok ∧ two.Ok ∧ one.cells = two.cells ∧ sum env0 [.range one []] = .err 7 ∧ sum env0 [.range two []] = .err 8 ∧ subtotal env0 9 [.range one []] = .err 8 := by
  refine ⟨?_, ?_, by decide +kernel⟩
  · intro ch hc row hr
    simp only [twoErrs, List.mem_cons, List.not_mem_nil, or_false] at hc
    subst hc
    simp only [List.mem_cons, List.not_mem_nil, or_false] at hr
    rcases hr with rfl | rfl <;> rfl
  · intro ch hc row hr
    simp only [twoErrs, List.map_cons, List.map_nil, List.mem_cons, List.not_mem_nil, or_false] at hc
    rcases hc with rfl | rfl <;> (simp only [List.mem_cons, List.not_mem_nil, or_false] at hr; subst hr; rfl)

/-- `SUBTOTAL(2, …)` is no `COUNT` where a cell is an error. -/
theorem subtotal_count_wrong : count env0 [.range ⟨1, [[[.num 1], [.err 7]]], 0⟩ []] = .num 1 ∧ subtotal env0 2 [.range ⟨1, [[[.num 1], [.err 7]]], 0⟩ []] = .err 7 := by decide +kernel

/-- `COUNT` of a value that is an error is the error, of a cell that is the error it is 0. -/
theorem count_error_wrong : count env0 [.scalar (.err 7)] = .err 7 ∧ count env0 [.range ⟨1, [[[.err 7]]], 0⟩ []] = .num 0 := by decide +kernel

/-- `COUNTBLANK` does not count the rows of a range after the ones that the sheet stores. -/
theorem countBlank_below_wrong : countBlank [.range ⟨1, [[[.num 1], [.empty]]], 8⟩ []] = .num 1 := by decide +kernel

/-- A text that is no number, as a value: `#VALUE!` for `SUM`, nothing for `SUBTOTAL(9, …)`. -/
theorem text_value_differs : sum env0 [.scalar (.text ['a'])] = .err errValue ∧ subtotal env0 9 [.scalar (.text ['a'])] = .num 0 := by decide +kernel

end Verif.Agg

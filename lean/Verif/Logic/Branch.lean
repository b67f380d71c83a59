import Verif.Logic.Props
import Mathlib.Tactic.Linarith
import Mathlib.Tactic.NormNum

/-! # Logical functions: branches, replaced errors, and where they go wrong -/

namespace Verif.Logic

/-- A condition as the user reads it. -/
theorem cond_iff (v : Lit) :
    (cond v = .yes ↔ Truthy v) ∧ (cond v = .no ↔ Falsy v) ∧ (∀ e, cond v = .err e → errorOf v = some e) ∧
    (cond v = .bad → errorOf v = some .value) := by
  rcases v with v | cells
  · rcases v with b | q | i | _ | s | e | q
    · cases b <;> simp [cond, Truthy, Falsy]
    · by_cases h : q = 0 <;> simp [cond, Truthy, Falsy, h]
    · by_cases h : i = 0 <;> simp [cond, Truthy, Falsy, h]
    all_goals simp [cond, Truthy, Falsy, errorOf]
  · simp [cond, Truthy, Falsy, errorOf]

/-! ## IF -/

/-- **IF gives its second argument where the condition counts as TRUE**, and evaluates the third never. -/
theorem if_yes (c a : Arg) (bs : List Arg) (cv : CV) (hl : bs.length ≤ 1) (hc : c.value = .ok cv) (ht : Truthy cv.lit) :
    IF (c :: a :: bs) = (a.value, [0, 1]) := by
  have h := (cond_iff cv.lit).1.mpr ht
  match bs, hl with
  | [], _ => simp only [IF, ifWith, hc, h, ifThen]
  | [b], _ => simp only [IF, ifWith, hc, h, ifThen]

/-- **IF gives its third argument where the condition counts as FALSE** (a blank does), or FALSE if it has none, and
evaluates the second never. -/
theorem if_no (c a b : Arg) (cv : CV) (hc : c.value = .ok cv) (hf : Falsy cv.lit) :
    IF [c, a, b] = (b.value, [0, 2]) ∧ IF [c, a] = (.ok (.one (.bool false)), [0]) := by
  have h := (cond_iff cv.lit).2.1.mpr hf
  exact ⟨by simp only [IF, ifWith, hc, h, ifThen], by simp only [IF, ifWith, hc, h, ifThen, give]⟩

/-- A condition that fails ends IF with its error. -/
theorem if_failing (c a : Arg) (bs : List Arg) (e : Err) (hl : bs.length ≤ 1) (hc : c.value = .error e) :
    IF (c :: a :: bs) = (.error e, [0]) := by
  match bs, hl with
  | [], _ => simp only [IF, ifWith, hc]
  | [b], _ => simp only [IF, ifWith, hc]

/-- But **a condition that is an error value gives `#VALUE!`**, not this error: with `#N/A` in A1, `=IF(A1,1,2)` is
`#VALUE!`, and IFNA around it replaces nothing. -/
theorem if_error_lost (c a : Arg) (bs : List Arg) (cv : CV) (e : Err) (hl : bs.length ≤ 1) (hc : c.value = .ok cv)
    (he : errorOf cv.lit = some e) : IF (c :: a :: bs) = (.ok (.one (.err .value)), [0]) := by
  have hx : cond cv.lit = .bad ∨ ∃ e, cond cv.lit = .err e := by
    rcases trichotomy cv.lit with h | h | h
    · rw [h.2.2] at he; cases he
    · rw [h.2.2] at he; cases he
    · cases hcd : cond cv.lit with
      | yes => exact absurd ((cond_iff _).1.mp hcd) h.1
      | no => exact absurd ((cond_iff _).2.1.mp hcd) h.2.1
      | err e => exact .inr ⟨e, rfl⟩
      | bad => exact .inl rfl
  rcases hx with hx | ⟨e', hx⟩
  · match bs, hl with
    | [], _ => simp only [IF, ifWith, hc, hx, ifThen, give]
    | [b], _ => simp only [IF, ifWith, hc, hx, ifThen, give]
  · match bs, hl with
    | [], _ => simp only [IF, ifWith, hc, hx, ifThen, give]
    | [b], _ => simp only [IF, ifWith, hc, hx, ifThen, give]

/-- The error of a condition shows as itself: refuted. -/
theorem if_error_refuted : ¬ ∀ (c a b : Arg) (e : Err), c.value = .ok (.one (.err e)) → (IF [c, a, b]).1 = .ok (.one (.err e)) := by
  intro h
  have := h (.expr (.ok (.one (.err .na)))) (.expr (.ok (.one (.int 1)))) (.expr (.ok (.one (.int 2)))) .na rfl
  revert this
  decide

/-! ## IFS -/

/-- **IFS gives the value beside the first condition that counts as TRUE** and evaluates nothing but the conditions
up to it and this value. -/
theorem ifs_first (pre : List (Arg × CV)) (vals : List Arg) (c a : Arg) (rest : List Arg) (cv : CV)
    (hlen : vals.length = pre.length) (hpre : ∀ p ∈ pre, p.1.value = .ok p.2 ∧ Falsy p.2.lit)
    (hc : c.value = .ok cv) (ht : Truthy cv.lit) (heven : rest.length % 2 = 0) :
    IFS (((pre.zip vals).flatMap fun p => [p.1.1, p.2]) ++ c :: a :: rest) =
      (a.value, (List.range pre.length).map (2 * ·) ++ [2 * pre.length, 2 * pre.length + 1]) := by
  have key : ∀ (pre : List (Arg × CV)) (vals : List Arg) (i : Nat), vals.length = pre.length →
      (∀ p ∈ pre, p.1.value = .ok p.2 ∧ Falsy p.2.lit) →
      ifsFrom (((pre.zip vals).flatMap fun p => [p.1.1, p.2]) ++ c :: a :: rest) i =
        (a.value, (List.range pre.length).map (fun k => i + 2 * k) ++ [i + 2 * pre.length, i + 2 * pre.length + 1]) := by
    intro pre
    induction pre with
    | nil =>
      intro vals i _ _
      have h := (cond_iff cv.lit).1.mpr ht
      simp [ifsFrom, hc, h]
    | cons p pre ih =>
      intro vals i hl hp
      cases vals with
      | nil => simp at hl
      | cons v vals =>
        have h0 := hp p (by simp)
        have h := (cond_iff p.2.lit).2.1.mpr h0.2
        have := ih vals (i + 2) (by simpa using hl) fun q hq => hp q (List.mem_cons_of_mem _ hq)
        simp only [List.zip_cons_cons, List.flatMap_cons, List.cons_append, List.nil_append, ifsFrom, h0.1, h, this]
        refine Prod.ext rfl ?_
        simp only [List.length_cons, List.range_succ_eq_map, List.map_cons, List.map_map, List.cons_append, Nat.mul_zero, Nat.add_zero, List.cons.injEq, true_and]
        congr 1
        · apply List.map_congr_left
          intro k _
          simp only [Function.comp]
          omega
        · simp only [List.cons.injEq, and_true]
          omega
  have hlen2 : ∀ (pre : List (Arg × CV)) (vals : List Arg), vals.length = pre.length →
      ((pre.zip vals).flatMap fun p => [p.1.1, p.2]).length = 2 * pre.length := by
    intro pre
    induction pre with
    | nil => intro _ _; rfl
    | cons p pre ih =>
      intro vals hl
      cases vals with
      | nil => simp at hl
      | cons v vals =>
        simp only [List.zip_cons_cons, List.flatMap_cons, List.length_append, List.length_cons, List.length_nil, ih vals (by simpa using hl)]
        omega
  unfold IFS
  rw [if_neg]
  · rw [key pre vals 0 hlen hpre]
    simp
  · simp only [List.length_append, List.length_cons, hlen2 pre vals hlen]
    omega

/-- IFS is `#N/A` where all conditions count as FALSE. -/
theorem ifs_none (pre : List (Arg × CV)) (vals : List Arg) (hne : pre ≠ []) (hlen : vals.length = pre.length)
    (hpre : ∀ p ∈ pre, p.1.value = .ok p.2 ∧ Falsy p.2.lit) :
    (IFS ((pre.zip vals).flatMap fun p => [p.1.1, p.2])).1 = .ok (.one (.err .na)) := by
  have key : ∀ (pre : List (Arg × CV)) (vals : List Arg) (i : Nat), vals.length = pre.length →
      (∀ p ∈ pre, p.1.value = .ok p.2 ∧ Falsy p.2.lit) →
      (ifsFrom ((pre.zip vals).flatMap fun p => [p.1.1, p.2]) i).1 = .ok (.one (.err .na)) ∧
      ((pre.zip vals).flatMap fun p => [p.1.1, p.2]).length = 2 * pre.length := by
    intro pre
    induction pre with
    | nil => intro vals i _ _; exact ⟨rfl, rfl⟩
    | cons p pre ih =>
      intro vals i hl hp
      cases vals with
      | nil => simp at hl
      | cons v vals =>
        have h0 := hp p (by simp)
        have h := (cond_iff p.2.lit).2.1.mpr h0.2
        have := ih vals (i + 2) (by simpa using hl) fun q hq => hp q (List.mem_cons_of_mem _ hq)
        constructor
        · simp only [List.zip_cons_cons, List.flatMap_cons, List.cons_append, List.nil_append, ifsFrom, h0.1, h, this.1]
        · simp only [List.zip_cons_cons, List.flatMap_cons, List.length_append, List.length_cons, List.length_nil, this.2]
          omega
  have hk := key pre vals 0 hlen hpre
  have : 0 < pre.length := List.length_pos_iff.mpr hne
  unfold IFS
  rw [if_neg (by rw [hk.2]; omega)]
  exact hk.1

/-- A first condition that is an error value ends IFS with this error: unlike IF. -/
theorem ifs_error (c a : Arg) (rest : List Arg) (e : Err) (h : c.value = .ok (.one (.err e))) (heven : rest.length % 2 = 0) :
    IFS (c :: a :: rest) = (.ok (.one (.err e)), [0]) := by
  unfold IFS
  rw [if_neg (by simp only [List.length_cons]; omega)]
  simp only [ifsFrom, h, CV.lit, cond, give]

/-! ## IFERROR and IFNA -/

/-- **IFERROR gives its first argument where this is neither an error nor fails**, and then does not evaluate the
second; else it gives the second. -/
theorem iferror_spec (a b : Arg) :
    ((∀ e, a.value ≠ .error e ∧ a.value ≠ .ok (.one (.err e))) → IFERROR [a, b] = (a.value, [0])) ∧
    (∀ e, a.value = .error e ∨ a.value = .ok (.one (.err e)) → IFERROR [a, b] = (b.value, [0, 1])) := by
  constructor
  · intro h
    have hf : failed a.value = false := by
      cases hv : a.value with
      | error e => exact absurd hv (h e).1
      | ok cv =>
        rcases cv with v | vs | vs
        · cases v with
          | err e => exact absurd hv (h e).2
          | _ => rfl
        · rfl
        · rfl
    simp only [IFERROR, hf]
    rfl
  · intro e h
    have hf : failed a.value = true := by rcases h with h | h <;> rw [h] <;> rfl
    simp only [IFERROR, hf, if_true]

/-- **An array literal is given whole, or fails with the first of its elements that fails.** -/
theorem array_value (vs : List V) (e : Err) (rest : List (Except Err V)) :
    (Arg.array (vs.map .ok)).value = .ok (.range vs) ∧
    (Arg.array (vs.map .ok ++ .error e :: rest)).value = .error e := by
  have h1 : collect (vs.map .ok) = .ok vs := by
    induction vs with
    | nil => rfl
    | cons v vs ih => simp only [List.map_cons, collect, ih]
  have h2 : collect (vs.map .ok ++ .error e :: rest) = .error e := by
    clear h1
    induction vs with
    | nil => rfl
    | cons v vs ih => simp only [List.map_cons, List.cons_append, collect, ih]
  simp only [Arg.value, h1, h2, and_self]

/-- IFERROR never shows an error of its first argument: refuted. A range or array of one cell that is an error is not
replaced, though it shows as this error: `=IFERROR({#N/A},0)` is `#N/A`. -/
theorem iferror_refuted : ¬ ∀ a b : Arg, (∃ v, b.value = .ok (.one v) ∧ errorOf (.one v) = none) →
    ∀ cv, (IFERROR [a, b]).1 = .ok cv → ∀ e, cv.lit ≠ .one (.err e) := by
  intro h
  exact h (.array [.ok (.err .na)]) (.expr (.ok (.one (.int 0)))) ⟨.int 0, rfl, rfl⟩ (.range [.err .na]) rfl .na rfl

/-- With a scalar as its first argument it holds. -/
theorem iferror_scalar (a b : Arg) (w : V) (hb : b.value = .ok (.one w)) (hw : ∀ e, w ≠ .err e)
    (ha : (∃ e, a.value = .error e) ∨ ∃ v, a.value = .ok (.one v)) :
    ∃ v, (IFERROR [a, b]).1 = .ok (.one v) ∧ ∀ e, v ≠ .err e := by
  rcases ha with ⟨e, ha⟩ | ⟨v, ha⟩
  · exact ⟨w, by rw [(iferror_spec a b).2 e (.inl ha), hb], hw⟩
  · by_cases hv : ∃ e, v = .err e
    · obtain ⟨e, rfl⟩ := hv
      exact ⟨w, by rw [(iferror_spec a b).2 e (.inr ha), hb], hw⟩
    · refine ⟨v, ?_, fun e he => hv ⟨e, he⟩⟩
      rw [(iferror_spec a b).1 fun e => ⟨by rw [ha]; simp, by rw [ha]; intro hh; exact hv ⟨e, by simpa using hh⟩⟩, ha]

/-- **IFNA replaces `#N/A` and nothing else.** -/
theorem ifna_spec (a b : Arg) :
    (a.value = .ok (.one (.err .na)) → IFNA [a, b] = (b.value, [0, 1])) ∧
    (a.value ≠ .ok (.one (.err .na)) → IFNA [a, b] = (a.value, [0])) := by
  constructor
  · intro h
    simp [IFNA, missing, h, CV.asScalar]
  · intro h
    have hf : missing a.value = false := by
      cases hv : a.value with
      | error e => rfl
      | ok cv =>
        rcases cv with v | vs | vs
        · rw [hv] at h
          simp only [missing, CV.asScalar, decide_eq_false_iff_not, Option.some.injEq]
          rintro rfl
          exact h rfl
        · rfl
        · rfl
    simp only [IFNA, hf]
    rfl

/-- IFNA replaces every `#N/A` that a cell would show: refuted, it does not replace that of an argument that fails. -/
theorem ifna_refuted : ¬ ∀ a b : Arg, (a.value = .error .na ∨ a.value = .ok (.one (.err .na))) → (IFNA [a, b]).1 = b.value := by
  intro h
  have := h (.expr (.error .na)) (.expr (.ok (.one (.int 0)))) (.inl rfl)
  simp [IFNA, missing, Arg.value] at this

/-! ## SWITCH and CHOOSE -/

/-- **SWITCH gives the value beside the first candidate that is the same as its first argument** and evaluates nothing
but the candidates up to it and this value. -/
theorem switch_first (x : Arg) (xv : CV) (pre : List (Arg × CV)) (vals : List Arg) (c a : Arg) (rest : List Arg) (cv : CV)
    (hx : x.value = .ok xv) (hxe : ∀ e, xv.lit ≠ .one (.err e)) (hlen : vals.length = pre.length)
    (hpre : ∀ p ∈ pre, p.1.value = .ok p.2 ∧ same xv.lit p.2.lit = false) (hc : c.value = .ok cv) (hs : same xv.lit cv.lit = true) :
    SWITCH (x :: (((pre.zip vals).flatMap fun p => [p.1.1, p.2]) ++ c :: a :: rest)) =
      (a.value, 0 :: ((List.range pre.length).map (fun k => 1 + 2 * k) ++ [1 + 2 * pre.length, 1 + 2 * pre.length + 1])) := by
  have key : ∀ (pre : List (Arg × CV)) (vals : List Arg) (i : Nat), vals.length = pre.length →
      (∀ p ∈ pre, p.1.value = .ok p.2 ∧ same xv.lit p.2.lit = false) →
      switchFrom xv.lit (((pre.zip vals).flatMap fun p => [p.1.1, p.2]) ++ c :: a :: rest) i =
        (a.value, (List.range pre.length).map (fun k => i + 2 * k) ++ [i + 2 * pre.length, i + 2 * pre.length + 1]) := by
    intro pre
    induction pre with
    | nil =>
      intro vals i _ _
      simp [switchFrom, hc, hs]
    | cons p pre ih =>
      intro vals i hl hp
      cases vals with
      | nil => simp at hl
      | cons v vals =>
        have h0 := hp p (by simp)
        have := ih vals (i + 2) (by simpa using hl) fun q hq => hp q (List.mem_cons_of_mem _ hq)
        simp only [List.zip_cons_cons, List.flatMap_cons, List.cons_append, List.nil_append, switchFrom, h0.1, h0.2, this]
        refine Prod.ext rfl ?_
        simp only [List.length_cons, List.range_succ_eq_map, List.map_cons, List.map_map, List.cons_append, Nat.mul_zero, Nat.add_zero,
          Bool.false_eq_true, if_false, List.cons.injEq, true_and]
        congr 1
        · apply List.map_congr_left
          intro k _
          simp only [Function.comp]
          omega
        · simp only [List.cons.injEq, and_true]
          omega
  have hon : ∀ l, switchOn l xv.lit = ((switchFrom xv.lit l 1).1, 0 :: (switchFrom xv.lit l 1).2) := by
    intro l
    unfold switchOn
    split
    · rename_i e he; exact absurd he (hxe e)
    · rfl
  have hcons : ∃ p q r, ((pre.zip vals).flatMap fun p => [p.1.1, p.2]) ++ c :: a :: rest = p :: q :: r := by
    cases pre with
    | nil => exact ⟨c, a, rest, rfl⟩
    | cons p pre =>
      cases vals with
      | nil => simp at hlen
      | cons v vals => exact ⟨_, _, _, rfl⟩
  have hk := key pre vals 1 hlen hpre
  obtain ⟨p, q, r, hpqr⟩ := hcons
  rw [hpqr] at hk ⊢
  simp only [SWITCH, hx, hon, hk]

/-- Without such a candidate SWITCH gives the default, or `#N/A` if there is none. -/
theorem switch_default (x : Arg) (xv : CV) (pre : List (Arg × CV)) (vals : List Arg) (d : Option Arg)
    (hx : x.value = .ok xv) (hxe : ∀ e, xv.lit ≠ .one (.err e)) (hne : pre ≠ []) (hlen : vals.length = pre.length)
    (hpre : ∀ p ∈ pre, p.1.value = .ok p.2 ∧ same xv.lit p.2.lit = false) :
    (SWITCH (x :: (((pre.zip vals).flatMap fun p => [p.1.1, p.2]) ++ d.toList))).1 =
      match d with
      | some d => d.value
      | none => .ok (.one (.err .na)) := by
  have key : ∀ (pre : List (Arg × CV)) (vals : List Arg) (i : Nat), vals.length = pre.length →
      (∀ p ∈ pre, p.1.value = .ok p.2 ∧ same xv.lit p.2.lit = false) →
      (switchFrom xv.lit (((pre.zip vals).flatMap fun p => [p.1.1, p.2]) ++ d.toList) i).1 =
        match d with
        | some d => d.value
        | none => .ok (.one (.err .na)) := by
    intro pre
    induction pre with
    | nil => intro vals i _ _; cases d <;> rfl
    | cons p pre ih =>
      intro vals i hl hp
      cases vals with
      | nil => simp at hl
      | cons v vals =>
        have h0 := hp p (by simp)
        have := ih vals (i + 2) (by simpa using hl) fun q hq => hp q (List.mem_cons_of_mem _ hq)
        simp only [List.zip_cons_cons, List.flatMap_cons, List.cons_append, List.nil_append, switchFrom, h0.1, h0.2,
          Bool.false_eq_true, if_false, this]
  have hon : ∀ l, (switchOn l xv.lit).1 = (switchFrom xv.lit l 1).1 := by
    intro l
    unfold switchOn
    split
    · rename_i e he; exact absurd he (hxe e)
    · rfl
  have hk := key pre vals 1 hlen hpre
  cases pre with
  | nil => exact absurd rfl hne
  | cons p pre =>
    cases vals with
    | nil => simp at hlen
    | cons v vals =>
      rw [← hk]
      simp only [List.zip_cons_cons, List.flatMap_cons, List.cons_append, List.nil_append, SWITCH, hx, hon]

/-- Sameness, for SWITCH: numbers closer than 1e-12, whether whole or not, texts up to the case of ASCII letters,
equal booleans, two blanks. -/
theorem same_numbers (x y : V) (p q : Rat) (hx : x = .num p ∨ ∃ i : Int, x = .int i ∧ p = i) (hy : y = .num q ∨ ∃ i : Int, y = .int i ∧ q = i) :
    same (.one x) (.one y) = true ↔ |p - q| < 1 / 10 ^ 12 := by
  rcases hx with rfl | ⟨i, rfl, rfl⟩ <;> rcases hy with rfl | ⟨j, rfl, rfl⟩
  · simp only [same, decide_eq_true_iff]
  · simp only [same, decide_eq_true_iff]
  · simp only [same, decide_eq_true_iff]
  · simp only [same, decide_eq_true_iff]
    constructor
    · rintro rfl
      rw [sub_self, abs_zero]
      norm_num
    · intro h
      have h1 : |((i - j : Int) : Rat)| < 1 := by
        push_cast
        exact lt_trans h (by norm_num)
      have h2 : |i - j| < 1 := by exact_mod_cast h1
      have := Int.abs_lt_one_iff.mp h2
      omega

theorem same_texts (x y : List Char) : same (.one (.text x)) (.one (.text y)) = true ↔ x.map lower = y.map lower := by
  simp only [same, decide_eq_true_iff]

/-- Values of different kinds are never the same; a blank is not the same as 0 or as an empty text. -/
theorem same_kinds : (∀ x, same (.one .empty) x = true → x = .one .empty) ∧ (∀ b x, same (.one (.bool b)) x = true → x = .one (.bool b)) ∧
    (∀ s x, same (.one (.text s)) x = true → ∃ t, x = .one (.text t)) ∧ (∀ e x, same (.one (.err e)) x = false) ∧ ∀ vs x, same (.arr vs) x = false := by
  refine ⟨?_, ?_, ?_, ?_, ?_⟩
  · intro x h
    rcases x with v | cells
    · cases v <;> simp_all [same]
    · simp [same] at h
  · intro b x h
    rcases x with v | cells
    · cases v <;> simp_all [same]
    · simp [same] at h
  · intro s x h
    rcases x with v | cells
    · cases v <;> simp_all [same]
    · simp [same] at h
  · intro e x
    rcases x with v | cells
    · cases v <;> rfl
    · rfl
  · intro vs x; rcases x with v | cells <;> rfl

/-- **CHOOSE gives the k-th choice** and evaluates nothing but the index and this choice; without such a choice it is
`#VALUE!`. -/
theorem choose_spec (x : Arg) (choices : List Arg) (cv : CV) (k : Int) (hne : choices ≠ []) (hx : x.value = .ok cv)
    (hk : cv.lit = .one (.int k)) :
    (∀ (n : Nat) (a : Arg), k = n + 1 → choices[n]? = some a → CHOOSE (x :: choices) = (a.value, [0, n + 1])) ∧
    (k < 1 ∨ choices.length < k → CHOOSE (x :: choices) = (.ok (.one (.err .value)), [0])) := by
  cases choices with
  | nil => exact absurd rfl hne
  | cons c cs =>
    simp only [CHOOSE, hx, hk, chooseIndex, chooseOn, pick]
    constructor
    · intro n a hn ha
      subst hn
      rw [if_neg (by omega)]
      have : ((n : Int) + 1).toNat - 1 = n := by omega
      rw [this, ha]
      have : ((n : Int) + 1).toNat = n + 1 := by omega
      rw [this]
    · intro h
      by_cases h1 : k < 1
      · rw [if_pos h1]; rfl
      · rw [if_neg h1]
        have : (c :: cs)[k.toNat - 1]? = none := by
          rw [List.getElem?_eq_none_iff]
          omega
        rw [this]; rfl

/-- An index with a fraction is cut off towards zero. -/
theorem choose_fraction (x : Arg) (choices : List Arg) (cv : CV) (q : Rat) (n : Nat) (a : Arg) (hne : choices ≠ []) (hx : x.value = .ok cv)
    (hq : cv.lit = .one (.num q)) (h1 : (n : Rat) + 1 ≤ q) (h2 : q < n + 2) (hn : n < 1000000000000000000) (ha : choices[n]? = some a) :
    CHOOSE (x :: choices) = (a.value, [0, n + 1]) := by
  have hf : ⌊q⌋ = (n : Int) + 1 := by
    rw [Int.floor_eq_iff]
    push_cast
    exact ⟨h1, by linarith⟩
  have h0 : (0 : Rat) ≤ q := by
    have : (0 : Rat) ≤ n := by exact_mod_cast Nat.zero_le n
    linarith
  have hi : asI64 q = (n : Int) + 1 := by
    unfold asI64
    rw [if_pos h0, hf]
    omega
  cases choices with
  | nil => exact absurd rfl hne
  | cons c cs =>
    simp only [CHOOSE, hx, hq, chooseIndex, chooseOn, pick, hi]
    rw [if_neg (by omega)]
    have : ((n : Int) + 1).toNat - 1 = n := by omega
    rw [this, ha]
    have : ((n : Int) + 1).toNat = n + 1 := by omega
    rw [this]

/-! ## Where AND, XOR and `&` go wrong -/

/-- AND skips blanks as OR does: refuted. One blank cell makes it FALSE. -/
theorem and_blank_refuted : ¬ ∀ (cells : List V) (v : Except Err CV), (∃ x ∈ cells, Truthy (.one x)) →
    (∀ x ∈ cells, Truthy (.one x) ∨ x = .empty) → (AND [.ref v (.ok cells)]).1 = .ok (.one (.bool true)) := by
  intro h
  have := h [.bool true, .empty] (.error .value) ⟨.bool true, by simp, rfl⟩ (by
    intro x hx
    simp only [List.mem_cons, List.not_mem_nil, or_false] at hx
    rcases hx with rfl | rfl
    · exact .inl rfl
    · exact .inr rfl)
  simp [AND, reduce, Arg.values, scan, andJudge, give] at this

/-- XOR shows the first error, as AND and OR do: refuted. Within one range it shows the last. -/
theorem xor_first_refuted : ¬ ∀ (cells : List V) (v : Except Err CV) (e : Err), (cells.map Lit.one).findSome? errorOf = some e →
    (XOR [.ref v (.ok cells)]).1 = .ok (.one (.err e)) := by
  intro h
  have := h [.err .na, .err .value] (.error .value) .na rfl
  simp [XOR, xorLoop, Arg.view, xorCells, xorJudge, give] at this

/-- An error under `&` is an error: refuted. It is written out as a text, which IFERROR and ISERROR then take for a
value. -/
theorem concat_error_text (number : Rat → List Char) (error : Err → List Char) (debug : List V → List Char) (a b : Arg) (e : Err) (y : CV)
    (ha : a.value = .ok (.one (.err e))) (hb : b.value = .ok y) :
    ∃ s, (concat number error debug a b).1 = .ok (.one (.text s)) ∧ ∀ c, IFERROR [call (concat number error debug a b), c] = (.ok (.one (.text s)), [0]) := by
  have h1 : (concat number error debug a b).1 = .ok (.one (.text (error e ++ toText number error debug y.lit))) := by
    simp only [concat, ha, hb, give, CV.lit, toText]
  refine ⟨error e ++ toText number error debug y.lit, h1, fun c => ?_⟩
  have h2 : (call (concat number error debug a b)).value = .ok (.one (.text (error e ++ toText number error debug y.lit))) := h1
  rw [(iferror_spec _ c).1 fun e' => by rw [h2]; simp, h2]

theorem concat_error_refuted (number : Rat → List Char) (error : Err → List Char) (debug : List V → List Char) :
    ¬ ∀ (a b : Arg) (e : Err), a.value = .ok (.one (.err e)) → ∃ e', (concat number error debug a b).1 = .ok (.one (.err e')) := by
  intro h
  obtain ⟨e', h'⟩ := h (.expr (.ok (.one (.err .na)))) (.expr (.ok (.one (.text [])))) .na rfl
  simp [concat, Arg.value, give] at h'

/-- Of texts `&` is the one after the other. -/
theorem concat_texts (number : Rat → List Char) (error : Err → List Char) (debug : List V → List Char) (a b : Arg) (s t : List Char)
    (ha : a.value = .ok (.one (.text s))) (hb : b.value = .ok (.one (.text t))) :
    concat number error debug a b = (.ok (.one (.text (s ++ t))), [0, 1]) := by
  simp only [concat, ha, hb, give, CV.lit, toText]

/-! ## Cases -/

example : AND [.ref (.error .value) (.ok [.bool true, .int 3]), .array [.ok (.num 2)]] = (.ok (.one (.bool true)), [0, 1]) := by decide

example : Gives [.ref (.error .value) (.ok [.bool true, .int 3]), .array [.ok (.num 2), .error .na]]
    [.one (.bool true), .one (.int 3), .one (.num 2), .one (.err .na)] :=
  ⟨[[.one (.bool true), .one (.int 3)], [.one (.num 2), .one (.err .na)]], rfl, rfl⟩

example : (AND [.expr (.ok (.one (.int 0))), .expr (.error .na)]) = (.ok (.one (.bool false)), [0]) := by decide

example : (OR [.expr (.ok (.one (.text ['x']))), .expr (.ok (.one (.int 1)))]) = (.ok (.one (.bool true)), [0, 1]) := by decide

example : (XOR [.ref (.error .na) (.ok [.int 1, .int 0, .int 2]), .expr (.ok (.one (.int 1)))]).1 = .ok (.one (.bool true)) := by decide

example : [Arg.ref (.error .na) (.ok [.int 1, .empty]), .expr (.ok (.one (.int 1)))].map xorValues =
    [[Lit.one (.int 1), .one .empty], [.one (.int 1)]].map some := rfl

example : Falsy (CV.lit (.range [.empty])) ∧ Truthy (CV.lit (.one (.num (1 / 2)))) := ⟨trivial, by norm_num [CV.lit, Truthy]⟩

example : IFS [.expr (.ok (.one (.bool false))), .expr (.error .na), .expr (.ok (.one (.int 1))), .expr (.ok (.one (.int 7))), .expr (.error .na), .expr (.error .na)] =
    (.ok (.one (.int 7)), [0, 2, 3]) := by decide

example : SWITCH [.expr (.ok (.one (.text ['a']))), .expr (.ok (.one (.text ['b']))), .expr (.error .na), .expr (.ok (.one (.text ['A']))), .expr (.ok (.one (.int 7)))] =
    (.ok (.one (.int 7)), [0, 1, 3, 4]) := by decide

example : CHOOSE [.expr (.ok (.one (.int 2))), .expr (.error .na), .expr (.ok (.one (.int 7)))] = (.ok (.one (.int 7)), [0, 2]) := by decide

end Verif.Logic

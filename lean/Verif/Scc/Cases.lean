import Verif.Scc.Live

/-!
# Loops: theorems with the analysis of the code, and what goes wrong

Values of the examples are numbers; `99` stands for `#CIRC!`.
-/

namespace Verif.Scc

variable {n : Nat} {V : Type} [DecidableEq V]

/-- With the policy `error` and formulas that give no arrays, a unit ends in one of two ways: all members have the only values that satisfy the formulas, or a cycle was read. -/
theorem error_ends_partial (conv : V → V → Bool) {u : Members n V} (hna : NoArr u) (val : Fin n → V) (excl : Fin n → Bool) :
    ∃ R, (evaluate analyze conv u .error val excl (n + 2) = some (R, .exact) ∧ Solves u R.st.excl R.st.val ∧
        ∀ s, Solves u R.st.excl s → (∀ i, R.st.excl i = true → s i = R.st.val i) → s = R.st.val) ∨
      (evaluate analyze conv u .error val excl (n + 2) = some (R, .stamped) ∧ ∃ i, excl i = false ∧ R.st.val i = u.circ ∧ R.st.excl i = true) := by
  obtain ⟨⟨R, e⟩, h⟩ := evaluate_ends analyze conv u .error val excl
  simp only [Policy.limit, Nat.add_zero] at h
  refine ⟨R, ?_⟩
  cases e with
  | exact => exact .inl ⟨h, (exact_solves analyze_right h).1, fun s hs he => exact_unique analyze_right h hs he⟩
  | budget => exact absurd h (budget_never_partial analyze_right hna)
  | stamped =>
    right
    refine ⟨h, ?_⟩
    obtain ⟨L, hL, hr⟩ := rounds_inv (P := LoopKnown u excl val) (fun L L' h hk => round_known analyze_right hna h hk) _ _ (start_known hna) _ h
    obtain ⟨⟨i, hi⟩, hall⟩ := stamped_are_cycles analyze_right hr
    have hx : L.st.excl i = false := by
      cases hx : L.st.excl i with
      | false => rfl
      | true =>
        cases hi with
        | one h => simp [St.edges, hx] at h
        | step h _ => simp [St.edges, hx] at h
    exact ⟨i, by rw [← hL.2.2.same]; exact hx, hall i hi hx⟩
  | converged =>
    obtain ⟨L, _, hr⟩ := rounds_inv (P := fun _ => True) (fun _ _ _ _ => trivial) _ _ trivial _ h
    unfold round at hr
    simp only at hr
    split at hr
    · simp at hr
    · split at hr
      · simp at hr
      · split at hr <;> simp at hr
  | capped =>
    obtain ⟨L, _, hr⟩ := rounds_inv (P := fun _ => True) (fun _ _ _ _ => trivial) _ _ trivial _ h
    unfold round at hr
    simp only at hr
    split at hr
    · simp at hr
    · split at hr
      · simp at hr
      · split at hr <;> simp at hr

/-- `A1 = IF(TRUE, 1, C1)`, `B1 = A1 + 1`, `C1 = 10 * B1`: the loop is not entered. -/
def quiet : Members 3 Nat :=
  { prog := fun i => if i = 0 then .ret 1 else if i = 1 then .read 0 fun a => .ret (a + 1) else .read 1 fun b => .ret (b * 10)
    arr := fun _ _ => false
    circ := 99 }

example : NoArr quiet := fun _ _ => rfl

example : (evaluate analyze (fun _ _ => false) quiet .error (fun _ => 0) (fun _ => false) 5).map (fun r => (r.1.st.val 0, r.1.st.val 1, r.1.st.val 2, r.1.passes, r.2)) = some (1, 2, 20, 1, .exact) := by
  decide +kernel

example : ∀ i s, ∀ t ∈ (run s (quiet.prog i)).2, t < i := by
  intro i s t ht
  match i with
  | 0 => simp [quiet, run] at ht
  | 1 => simp [quiet, run] at ht; subst ht; decide
  | 2 => simp [quiet, run] at ht; subst ht; decide

/-- The same cells in another order: a second pass. -/
def quietBack : Members 3 Nat :=
  { prog := fun i => if i = 2 then .ret 1 else if i = 1 then .read 2 fun a => .ret (a + 1) else .read 1 fun b => .ret (b * 10)
    arr := fun _ _ => false
    circ := 99 }

example : (evaluate analyze (fun _ _ => false) quietBack .error (fun _ => 0) (fun _ => false) 5).map (fun r => (r.1.st.val 0, r.1.st.val 1, r.1.st.val 2, r.1.passes, r.2)) =
    some (20, 2, 1, 2, .exact) := by
  decide +kernel

/-! ### `#CIRC!` without a cycle -/

/-- `A1 = B1`, `B1 = IF(C1, 2, A1)`, `C1 = IF(TRUE, 1, A1)`, read in this order. -/
def late : Members 3 Nat :=
  { prog := fun i =>
      if i = 0 then .read 1 fun b => .ret b
      else if i = 1 then .read 2 fun c => if c ≠ 0 then .ret 2 else .read 0 fun a => .ret a
      else .ret 1
    arr := fun _ _ => false
    circ := 99 }

/-- The formulas have one solution, without a cycle among what is read there. -/
theorem late_solution : Solves late (fun _ => false) (fun i => if i = 2 then 1 else 2) ∧ Acyclic (reads late (fun _ => false) fun i => if i = 2 then 1 else 2) := by
  refine ⟨by unfold Solves; decide +kernel, ?_⟩
  have h := (analyze_right (reads late (fun _ => false) fun i => if i = 2 then 1 else 2)).1
  intro i hi
  have := (h i).2 hi
  have hd : ∀ i, (analyze (reads late (fun _ => false) fun i => if i = 2 then 1 else 2)).inCycle i = false := by decide +kernel
  rw [hd i] at this
  cases this

/-- Yet at first `C1` is empty when it is read, the first pass sees `A1` and `B1` read each other, and both stay `#CIRC!`.  If the cells already had the right values nothing is stamped: the result
depends on the values before. -/
theorem circ_without_cycle :
    (evaluate analyze (fun _ _ => false) late .error (fun _ => 0) (fun _ => false) 5).map (fun r => (r.1.st.val 0, r.1.st.val 1, r.1.st.val 2, r.2)) = some (99, 99, 1, .stamped) ∧
    (evaluate analyze (fun _ _ => false) late .error (fun i => if i = 2 then 1 else 2) (fun _ => false) 5).map (fun r => (r.1.st.val 0, r.1.st.val 1, r.1.st.val 2, r.2)) =
      some (2, 2, 1, .exact) := by
  decide +kernel

/-! ### Values that do not satisfy the formulas -/

/-- `A1 = B1`, `B1 = A1`, `C1 = IF(ISERROR(A1), D1, 0)`, `D1 = IF(ISERROR(A1), 5, 1)`. -/
def after : Members 4 Nat :=
  { prog := fun i =>
      if i = 0 then .read 1 fun b => .ret b
      else if i = 1 then .read 0 fun a => .ret a
      else if i = 2 then .read 0 fun a => if a = 99 then .read 3 fun d => .ret d else .ret 0
      else .read 0 fun a => if a = 99 then .ret 5 else .ret 1
    arr := fun _ _ => false
    circ := 99 }

/-- After the stamping `C1` reads `D1` before `D1` is evaluated again: `C1 = 1` though its formula gives `D1 = 5`. -/
theorem stamped_solves_wrong :
    (evaluate analyze (fun _ _ => false) after .error (fun _ => 0) (fun _ => false) 5).map (fun r => (r.1.st.val 0, r.1.st.val 1, r.1.st.val 2, r.1.st.val 3, r.2)) = some (99, 99, 1, 5, .stamped) ∧
    (evaluate analyze (fun _ _ => false) after .error (fun _ => 0) (fun _ => false) 5).map (fun r => (r.1.st.excl 2, (run r.1.st.val (after.prog 2)).1)) = some (false, 5) := by
  decide +kernel

/-! ### Iteration -/

/-- `A1 = MIN(B1 + 1, 3)`, `B1 = A1`. -/
def count : Members 2 Nat :=
  { prog := fun i => if i = 0 then .read 1 fun b => .ret (min (b + 1) 3) else .read 0 fun a => .ret a
    arr := fun _ _ => false
    circ := 99 }

example : (evaluate analyze (fun v w => decide (v = w)) count (.iterate 100) (fun _ => 0) (fun _ => false) 104).map (fun r => (r.1.st.val 0, r.1.st.val 1, r.1.passes, r.2)) = some (3, 3, 4, .converged) := by
  decide +kernel

example : (evaluate analyze (fun v w => decide (v = w)) count (.iterate 2) (fun _ => 0) (fun _ => false) 6).map (fun r => (r.1.st.val 0, r.1.st.val 1, r.1.passes, r.2)) = some (2, 2, 2, .capped) := by
  decide +kernel

/-- Values that can be found one after another are found under iteration also where other members go round. -/
def mixed : Members 3 Nat :=
  { prog := fun i => if i = 0 then .read 1 fun b => .ret (b + 1) else if i = 1 then .read 2 fun c => .read 0 fun a => .ret (a + c) else .ret 7
    arr := fun _ _ => false
    circ := 99 }

example : det mixed (fun _ => false) (fun _ => 0) 1 2 = some 7 ∧
    (evaluate analyze (fun _ _ => false) mixed (.iterate 3) (fun _ => 0) (fun _ => false) 8).map (fun r => (r.1.st.val 2, r.1.passes, r.2)) = some (7, 3, .capped) := by
  decide +kernel

end Verif.Scc

import Verif.Spill.Outcome

/-!
# Evaluating arrays: worked cases and the situations where the outcome is not the documented one (C44)

Cells are written `⟨sheet, row, column⟩`, all 0-based; `mx` is the cap on the size of an array result.
-/

namespace Verif.Spill

/-- The default of `SpillConfig::max_spill_cells` (engine/mod.rs 1210). -/
abbrev mx : Nat := 10000

/-- No formula of the same layer may be overwritten (sequential evaluation). -/
abbrev seq : Nat → Bool := fun _ => false

def a1 : Cell := ⟨0, 0, 0⟩
def a2 : Cell := ⟨0, 1, 0⟩
def a3 : Cell := ⟨0, 2, 0⟩

/-- A column of three numbers. -/
def three : Result := .array [[.num 1], [.num 2], [.num 3]]

/-- A formula typed into A1. -/
def typed : List EOp := [.formula a1 5]

/-- The formula evaluated: A1:A3 show 1, 2, 3. -/
def spilled : List EOp := typed ++ [.eval seq 0 three]

/-- The hypotheses of `array_result` hold here, and the result is the expected one. -/
example :
    (eRun mx {} typed).g.pos 0 = some a1 ∧ (eRun mx {} typed).g.kind 0 = .formula ∧
    (evalVertex mx seq (eRun mx {} typed) 0 three).2 = true ∧
    read (eRun mx {} spilled) a1 = .num 1 ∧ read (eRun mx {} spilled) a3 = .num 3 ∧
    (eRun mx {} spilled).shim.mgr.locks = [] := by decide +kernel

example : ¬ Obstructed mx seq (eRun mx {} typed) 0 a1 [[.num 1], [.num 2], [.num 3]] := by
  have hl : (eRun mx {} typed).shim.mgr.locks = [] := rfl
  rintro (h | h | ⟨l, hl', -⟩ | ⟨c, hc, h | ⟨h1, h2, h3, h4⟩⟩)
  · simp [mx] at h
  · exact h (by unfold InSheet; decide)
  · rw [hl] at hl'; simp at hl'
  · have : (plan (eRun mx {} typed).g 0 (rect a1 3 1) seq).isSome := (plan_refused_iff _ _ _ _).2 ⟨c, hc, h⟩
    revert this; decide +kernel
  · have hc' : c ∈ [a1, a2, a3] := hc
    simp only [List.mem_cons, List.not_mem_nil, or_false] at hc'
    rcases hc' with rfl | rfl | rfl
    · exact h1 rfl
    · exact h4 (by decide +kernel)
    · exact h4 (by decide +kernel)

/-- **C44, negation (worked case of `refused_for_ever`).** A value typed into A2 blocks A1's array; after the value is
deleted and the formula typed again, the next evaluation still shows `#SPILL!`. -/
theorem spill_never_recovers :
    let e := eRun mx {} (typed ++ [.value a2 (.num 9), .eval seq 0 three, .value a2 .empty, .formula a1 5])
    read e a2 = .empty ∧ (∀ c ∈ rect a1 3 1, c ≠ a1 → read e c = .empty ∧ e.g.owner c = none ∧
      ∀ v, e.g.at' c = some v → e.g.kind v = .cell) ∧
    (evalVertex mx seq e 0 three).2 = true ∧ read (evalVertex mx seq e 0 three).1 a1 = .spillErr := by
  have hr : rect a1 3 1 = [a1, a2, a3] := by decide +kernel
  refine ⟨by decide +kernel, ?_, by decide +kernel, by decide +kernel⟩
  rw [hr]
  intro c hc hne
  simp only [List.mem_cons, List.not_mem_nil, or_false] at hc
  rcases hc with rfl | rfl | rfl
  · exact absurd rfl hne
  · refine ⟨by decide +kernel, by decide +kernel, ?_⟩
    intro v hv
    have : v = 1 := by
      have h1 : (eRun mx {} (typed ++ [.value a2 (.num 9), .eval seq 0 three, .value a2 .empty, .formula a1 5])).g.at' a2
        = some 1 := by decide +kernel
      rw [h1] at hv; exact (Option.some.inj hv).symm
    subst this; decide +kernel
  · refine ⟨by decide +kernel, by decide +kernel, ?_⟩
    intro v hv
    have h1 : (eRun mx {} (typed ++ [.value a2 (.num 9), .eval seq 0 three, .value a2 .empty, .formula a1 5])).g.at' a3
        = none := by decide +kernel
    rw [h1] at hv; simp at hv

/-- **C44, negation.** The leftover reservation also blocks a different formula whose array would cover one of its
cells, although every cell of that array is free. -/
theorem leftover_blocks_others :
    let e := eRun mx {} (typed ++ [.value a2 (.num 9), .eval seq 0 three, .value a2 .empty, .value a1 .empty,
      .formula a3 7])
    read e a1 = .empty ∧ read e ⟨0, 2, 1⟩ = .empty ∧
    read (evalVertex mx seq e 2 (.array [[.num 4, .num 5]])).1 a3 = .spillErr := by decide +kernel

/-- **C44, negation.** Parallel layers: A1's array covers A2, which holds a formula of the same layer.  In a parallel
layer the plan lets the array overwrite A2, the commit refuses it, and the whole evaluation returns an error; in a
sequential layer A1 shows `#SPILL!` and the evaluation goes on. -/
theorem parallel_layer_aborts :
    let e := eRun mx {} (typed ++ [.formula a2 6])
    (evalVertex mx (fun i => i == 0 || i == 1) e 0 three).2 = false ∧
    (evalVertex mx seq e 0 three).2 = true ∧ read (evalVertex mx seq e 0 three).1 a1 = .spillErr := by decide +kernel

/-- **C44, negation.** A value typed into a cell of a spill makes the next evaluation return an error, and A1 keeps
showing nothing instead of `#SPILL!`; `array_result` excludes this by its last hypothesis. -/
theorem typed_over_child_aborts :
    let e := eRun mx {} (spilled ++ [.value a2 (.num 9)])
    (evalVertex mx seq e 0 three).2 = false ∧ read (evalVertex mx seq e 0 three).1 a1 = .empty ∧
    read (evalVertex mx seq e 0 three).1 a2 = .num 9 := by decide +kernel

/-- **C44, negation.** A formula typed into a cell of a spill is deleted without an error by the next evaluation of the
array. -/
theorem typed_formula_deleted :
    let e := eRun mx {} (spilled ++ [.formula a2 8])
    e.g.at' a2 = some 1 ∧ e.g.fml 1 = some 8 ∧ (evalVertex mx seq e 0 three).2 = true ∧
    (evalVertex mx seq e 0 three).1.g.fml 1 = none ∧ read (evalVertex mx seq e 0 three).1 a2 = .num 2 := by
  decide +kernel

/-- **C27/C44, negation.** After a row is inserted above a spill, the record of its cells still names the old cells; a
formula typed into one of those, now unrelated, is deleted by the next evaluation of the array. -/
theorem insert_row_deletes_formula :
    let e := eRun mx {} (spilled ++ [.insertRows 0 0 1, .formula a1 8])
    e.g.pos 0 = some a2 ∧ e.g.cells 0 = some [a1, a2, a3] ∧ e.g.at' a1 = some 3 ∧ e.g.fml 3 = some 8 ∧
    (evalVertex mx seq e 0 three).1.g.fml 3 = none := by decide +kernel

/-- **C44, negation.** A value typed over the array formula itself: the other cells of the array keep showing its values
and stay recorded as its own. -/
theorem typed_over_anchor_keeps_children :
    let e := eRun mx {} (spilled ++ [.value a1 (.num 0)])
    e.g.kind 0 = .cell ∧ read e a2 = .num 2 ∧ read e a3 = .num 3 ∧ e.g.owner a3 = some 0 := by decide +kernel

end Verif.Spill

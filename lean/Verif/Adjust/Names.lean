import Verif.Adjust.Edit

/-!
# Named ranges and column edits, and names on other sheets (C39)
-/

namespace Verif.Adjust

theorem adjustCell_insCols {s before count r c : Nat} (hr : r ≤ rowMax) (hc : shiftIns before count c ≤ colMax) :
    adjustCell r c (.insCols s before count) = some (some (r, shiftIns before count c)) := by
  unfold shiftIns at *
  simp only [adjustCell]
  split at hc
  · next h => rw [if_pos h, if_pos h]
  · next h =>
    rw [if_neg h, if_neg h, add32_eq (by simp only [two32]; unfold colMax at hc; omega)]
    simp only [coordNew, hr, hc, and_self, if_true, Option.map_some]

theorem adjustCell_delCols {s start count r c : Nat} (hr : r ≤ rowMax) (hc : c ≤ colMax) (hs : start + count < two32) :
    adjustCell r c (.delCols s start count) =
      some (if Deleted start count c then none else some (r, shiftDel start count c)) := by
  simp only [adjustCell]
  rw [add32_eq hs]
  by_cases h1 : c ≥ start ∧ c < start + count
  · rw [if_pos h1, if_pos (show Deleted start count c from h1)]
  · rw [if_neg h1, if_neg (show ¬ Deleted start count c from h1)]
    by_cases h2 : c ≥ start + count
    · rw [if_pos h2, sub32_eq (by omega) (by unfold colMax at hc; simp only [two32]; omega)]
      simp only [shiftDel]
      rw [if_neg (by omega)]
      simp only [coordNew]
      rw [if_pos ⟨hr, by omega⟩]; rfl
    · rw [if_neg h2]
      simp only [shiftDel]
      rw [if_pos (by omega)]

/-- C39: when columns are inserted, a name for a range covers its cells where they went, and the gap if it is inside. -/
theorem name_insertCols (norm : Ref → String) (ctx : Option Ctx) (s before count r0 c0 r1 c1 : Nat)
    (h0 : shiftIns before count c0 ≤ colMax) (h1 : shiftIns before count c1 ≤ colMax) (hr0 : r0 ≤ rowMax)
    (hr1 : r1 ≤ rowMax) (ho : c0 ≤ c1) :
    ∃ a b, adjustName norm ctx (.insCols s before count) (.range s r0 c0 r1 c1) = some (.range s r0 a r1 b) ∧
      ∀ i, (a ≤ i ∧ i ≤ b) ↔ (∃ j, c0 ≤ j ∧ j ≤ c1 ∧ i = shiftIns before count j) ∨
        (before ≤ i ∧ i < before + count ∧ c0 < before ∧ before ≤ c1) := by
  refine ⟨shiftIns before count c0, shiftIns before count c1, ?_, fun i => ?_⟩
  · simp only [adjustName, adjustCellOn, Shift.sheet, if_true, adjustCell_insCols hr0 h0, adjustCell_insCols hr1 h1,
      Option.bind_some, Option.map_some]
  · unfold shiftIns
    constructor
    · rintro ⟨h1, h2⟩
      by_cases hi : i < before
      · left; refine ⟨i, ?_, ?_, by rw [if_pos hi]⟩
        · split at h1 <;> omega
        · split at h2 <;> omega
      · by_cases hg : i < before + count
        · right; refine ⟨by omega, hg, ?_, ?_⟩
          · split at h1 <;> omega
          · split at h2 <;> omega
        · left; refine ⟨i - count, ?_, ?_, by rw [if_neg (by omega)]; omega⟩
          · split at h1 <;> omega
          · split at h2 <;> omega
    · rintro (⟨j, h1, h2, rfl⟩ | ⟨h1, h2, h3, h4⟩)
      · split <;> split <;> split <;> omega
      · rw [if_pos h3, if_neg (by omega)]; omega

/-- C39: when columns are deleted, a name for a single cell becomes `#REF!` exactly when its column goes. -/
theorem name_deleteCols_cell (norm : Ref → String) (ctx : Option Ctx) (s start count r c : Nat) (hr : r ≤ rowMax)
    (hc : c ≤ colMax) (hs : start + count < two32) :
    adjustName norm ctx (.delCols s start count) (.cell s r c) =
      some (if Deleted start count c then .formula .refErr else .cell s r (shiftDel start count c)) := by
  simp only [adjustName, adjustCellOn, Shift.sheet, if_true, adjustCell_delCols hr hc hs, Option.map_some]
  by_cases h : Deleted start count c
  · simp only [if_pos h]
  · simp only [if_neg h]

/-- C39 (partial): a range name whose first and last columns survive covers exactly the surviving columns. Missing:
names that lose their first or last column, see `name_loses_edge_column`. -/
theorem name_deleteCols_range_partial (norm : Ref → String) (ctx : Option Ctx) (s start count r0 c0 r1 c1 : Nat)
    (hr0 : r0 ≤ rowMax) (hr1 : r1 ≤ rowMax) (hc0 : c0 ≤ colMax) (hc1 : c1 ≤ colMax) (hs : start + count < two32)
    (ho : c0 ≤ c1) (hd0 : ¬ Deleted start count c0) (hd1 : ¬ Deleted start count c1) :
    ∃ a b, adjustName norm ctx (.delCols s start count) (.range s r0 c0 r1 c1) = some (.range s r0 a r1 b) ∧
      ∀ i, (a ≤ i ∧ i ≤ b) ↔ ∃ j, c0 ≤ j ∧ j ≤ c1 ∧ ¬ Deleted start count j ∧ i = shiftDel start count j := by
  refine ⟨shiftDel start count c0, shiftDel start count c1, ?_, fun i => ?_⟩
  · simp only [adjustName, adjustCellOn, Shift.sheet, if_true, adjustCell_delCols hr0 hc0 hs,
      adjustCell_delCols hr1 hc1 hs, Option.bind_some, Option.map_some, if_neg hd0, if_neg hd1]
  · unfold Deleted at *
    unfold shiftDel
    constructor
    · rintro ⟨h1, h2⟩
      by_cases hi : i < start
      · refine ⟨i, ?_, ?_, by omega, by rw [if_pos hi]⟩
        · split at h1 <;> omega
        · split at h2 <;> omega
      · refine ⟨i + count, ?_, ?_, by omega, by rw [if_neg (by omega)]; omega⟩
        · split at h1 <;> omega
        · split at h2 <;> omega
    · rintro ⟨j, h1, h2, h3, rfl⟩
      split <;> split <;> split <;> omega

/-- C39 fails, exactly: deletion turns a range name into `#REF!` if and only if its first or its last row (column) goes,
however many of its cells are left. -/
theorem name_lost_iff (norm : Ref → String) (ctx : Option Ctx) (s start count r0 c0 r1 c1 : Nat) (hr0 : r0 ≤ rowMax)
    (hr1 : r1 ≤ rowMax) (hc0 : c0 ≤ colMax) (hc1 : c1 ≤ colMax) (hs : start + count < two32) :
    (adjustName norm ctx (.delRows s start count) (.range s r0 c0 r1 c1) = some (.formula .refErr) ↔
      Deleted start count r0 ∨ Deleted start count r1) ∧
    (adjustName norm ctx (.delCols s start count) (.range s r0 c0 r1 c1) = some (.formula .refErr) ↔
      Deleted start count c0 ∨ Deleted start count c1) := by
  constructor
  · simp only [adjustName, adjustCellOn, Shift.sheet, if_true, adjustCell_delRows hr0 hc0 hs,
      adjustCell_delRows hr1 hc1 hs, Option.bind_some, Option.map_some]
    by_cases h0 : Deleted start count r0 <;> by_cases h1 : Deleted start count r1 <;> simp [h0, h1]
  · simp only [adjustName, adjustCellOn, Shift.sheet, if_true, adjustCell_delCols hr0 hc0 hs,
      adjustCell_delCols hr1 hc1 hs, Option.bind_some, Option.map_some]
    by_cases h0 : Deleted start count c0 <;> by_cases h1 : Deleted start count c1 <;> simp [h0, h1]

/-- C39 fails for columns too: deleting the last of ten columns destroys the name. -/
theorem name_loses_edge_column (norm : Ref → String) (ctx : Option Ctx) :
    adjustName norm ctx (.delCols 0 9 1) (.range 0 0 0 0 9) = some (.formula .refErr) := by rfl

/-- C39: names for cells and ranges of other sheets stay as they are. -/
theorem name_elsewhere (norm : Ref → String) (ctx : Option Ctx) (op : Shift) (s r0 c0 r1 c1 : Nat) (hs : s ≠ op.sheet) :
    adjustName norm ctx op (.cell s r0 c0) = some (.cell s r0 c0) ∧
    adjustName norm ctx op (.range s r0 c0 r1 c1) = some (.range s r0 c0 r1 c1) := by
  simp [adjustName, adjustCellOn, hs]

/-- C39: a name for a constant stays as it is. -/
theorem name_constant (norm : Ref → String) (ctx : Option Ctx) (op : Shift) (t : String) :
    adjustName norm ctx op (.literal t) = some (.literal t) := rfl

/-- Cases meeting the hypotheses: a name for columns C to H when E and F go, and when two columns come in before E. -/
example (norm : Ref → String) :
    adjustName norm none (.delCols 0 4 2) (.range 0 0 2 0 7) = some (.range 0 0 2 0 5) ∧
    adjustName norm none (.insCols 0 4 2) (.range 0 0 2 0 7) = some (.range 0 0 2 0 9) ∧
    adjustName norm none (.insCols 0 4 2) (.range 1 0 2 0 7) = some (.range 1 0 2 0 7) := by
  refine ⟨by rfl, by rfl, by rfl⟩

end Verif.Adjust

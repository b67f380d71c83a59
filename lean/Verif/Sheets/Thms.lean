/-
Property C65, the theorems, and what goes wrong otherwise.
-/
import Verif.Sheets.Refine
import Verif.Arena.AstFinal

namespace Verif.Sheets

open Verif.Arena

variable {K V : Type} [DecidableEq K] {lower : String → String}

/-- After any careful history, the sheets, their names and what formulas read from them are as specified, and so is what the
next careful operation does and reports. -/
theorem sheets_as_specified (hl : Lower lower) (ops : List (Op K V)) (op : Op K V) (hc : AllCareful lower Engine.new (ops ++ [op]))
    (hn : ops.length < 2 ^ 16) :
    (Engine.new.run lower ops).book = Book.run lower [] ops ∧
      (((Engine.new.run lower ops).step lower op).1.book, ((Engine.new.run lower ops).step lower op).2) = (Book.run lower [] ops).step lower op := by
  have split : ∀ (ops : List (Op K V)) (w : Engine K V), AllCareful lower w (ops ++ [op]) → AllCareful lower w ops ∧ Careful lower (w.run lower ops).reg op := by
    intro ops
    induction ops with
    | nil => exact fun w h => ⟨trivial, h.1⟩
    | cons o ops ih => exact fun w h => ⟨⟨h.1, (ih _ h.2).1⟩, (ih _ h.2).2⟩
  have len : ∀ (ops : List (Op K V)) (w : Engine K V), (w.run lower ops).reg.names.length ≤ w.reg.names.length + ops.length := by
    intro ops
    induction ops with
    | nil => exact fun w => Nat.le_refl _
    | cons o ops ih =>
      intro w
      have h1 := ih (w.step lower o).1
      have h2 := step_names (lower := lower) w o
      simp only [List.length_cons]
      exact Nat.le_trans h1 (by omega)
  obtain ⟨h1, h2⟩ := split ops _ hc
  have h3 := len ops Engine.new
  obtain ⟨h4, h5⟩ := run_refines hl ops new_aligned h1 (by simp [Engine.new, Reg.new]; omega)
  refine ⟨h5, ?_⟩
  rw [show Book.run lower [] ops = (Engine.new.run lower ops).book from h5.symm]
  exact (step_refines hl h4 h2 (by simp only [Engine.new, Reg.new, List.length_nil] at h3; exact Nat.lt_of_le_of_lt h3 (by omega))).2

/-- What formulas read does not depend on the spelling: in the state after a careful history, reading under the registered name
is reading the sheet of the specification. -/
theorem read_as_specified (hl : Lower lower) (ops : List (Op K V)) (hc : AllCareful lower Engine.new ops) (hn : ops.length ≤ 2 ^ 16) {i : Nat}
    {s : String} {d : Cells K V} (h : (Book.run lower [] ops)[i]? = some (some (s, d))) (k : K) :
    (Engine.new.run lower ops).read s k = d k ∧ (Engine.new.run lower ops).formulaRead i k = d k := by
  obtain ⟨-, h5⟩ := run_refines hl ops new_aligned hc (by simpa [Engine.new, Reg.new] using hn)
  rw [show Book.run lower [] ops = (Engine.new.run lower ops).book from h5.symm] at h
  have hb := book_sheet (Engine.new.run lower ops) i
  rw [h] at hb
  split at hb
  · cases hb
  · have e := Option.some.inj hb
    simp only [Prod.mk.injEq] at e
    obtain ⟨rfl, rfl⟩ := e
    exact ⟨rfl, rfl⟩

/-! ### Renamings that are refused -/

/-- The renaming of a sheet to the name of another is refused. -/
theorem taken_refused {w : Engine K V} (h : Aligned lower w) {i j : Nat} (hi : w.reg.name i ≠ "") (hj : w.reg.name j ≠ "") (hij : i ≠ j) :
    w.step lower (.rename i (w.reg.name j)) =
      (⟨w.reg, renameFirst (renameFirst w.store (w.reg.name i) (w.reg.name j)) (w.reg.name j) (w.reg.name i)⟩, false) := by
  have hgr : graphRename lower w.reg i (w.reg.name j) = none := by
    unfold graphRename
    split
    · rfl
    · rw [getId_of_name h.ok hj]
      dsimp only
      rw [if_pos (fun e => hij e.symm)]
  simp only [Engine.step]
  rw [hgr]

/-- If the sheet whose name is taken is the first in the storage, or only this one has values, a refused renaming makes the
two sheets change their values. -/
theorem refused_rename_swaps {w : Engine K V} (h : Aligned lower w) {i j : Nat} (hi : w.reg.name i ≠ "") (hj : w.reg.name j ≠ "") (hij : i ≠ j)
    (hf : firstOf w.store (w.reg.name i) (w.reg.name j) = some (w.reg.name j)) :
    (w.step lower (.rename i (w.reg.name j))).2 = false ∧
      (∀ k, (w.step lower (.rename i (w.reg.name j))).1.formulaRead i k = w.formulaRead j k) ∧
      ∀ k, (w.step lower (.rename i (w.reg.name j))).1.formulaRead j k = w.formulaRead i k := by
  rw [taken_refused h hi hj hij]
  have hne : w.reg.name i ≠ w.reg.name j := fun e => by
    have h1 := getId_of_name h.ok hi
    rw [e, getId_of_name h.ok hj] at h1
    exact hij (Option.some.inj h1).symm
  obtain ⟨h1, h2⟩ := renameFirst_swap h.nodup hne hf
  refine ⟨rfl, fun k => ?_, fun k => ?_⟩
  · simp only [Engine.formulaRead, Engine.read]
    rw [h1]
  · simp only [Engine.formulaRead, Engine.read]
    rw [h2]

/-- Otherwise a refused renaming changes nothing. -/
theorem refused_rename_harmless {w : Engine K V} (h : Aligned lower w) {i j : Nat} (hi : w.reg.name i ≠ "") (hj : w.reg.name j ≠ "") (hij : i ≠ j)
    (hf : firstOf w.store (w.reg.name i) (w.reg.name j) ≠ some (w.reg.name j)) :
    w.step lower (.rename i (w.reg.name j)) = (w, false) := by
  rw [taken_refused h hi hj hij]
  have hne : w.reg.name i ≠ w.reg.name j := fun e => by
    have h1 := getId_of_name h.ok hi
    rw [e, getId_of_name h.ok hj] at h1
    exact hij (Option.some.inj h1).symm
  rw [renameFirst_noswap hne hf]

/-- The renaming of a sheet that is not there is refused, and the sheet that has the new name loses its values. -/
theorem rename_missing_loses {w : Engine K V} (h : Aligned lower w) {i j : Nat} (hi : w.reg.name i = "") (hj : w.reg.name j ≠ "") :
    (w.step lower (.rename i (w.reg.name j))).2 = false ∧
      ∀ k, (w.step lower (.rename i (w.reg.name j))).1.formulaRead j k = none := by
  have hgr : graphRename lower w.reg i (w.reg.name j) = none := by simp [graphRename, hi]
  have hempty : "" ∉ keys w.store := fun hm => (h.known _ hm).1 rfl
  simp only [Engine.step]
  rw [hgr]
  refine ⟨rfl, fun k => ?_⟩
  simp only [Engine.formulaRead, Engine.read]
  rw [hi, renameFirst_missing hempty, find_renameFirst_old h.nodup hj]
  rfl

/-! ### Names in another case -/

/-- The renaming of a sheet to its own name in another case is reported as done; the name stays, and the values are lost. -/
theorem case_rename_loses {w : Engine K V} (h : Aligned lower w) {i : Nat} {new : String} (hi : w.reg.name i ≠ "") (hn : new ≠ "")
    (hlen : new.utf8ByteSize ≤ 255) (hcase : lower new = lower (w.reg.name i)) (hne : new ≠ w.reg.name i) :
    (w.step lower (.rename i new)).2 = true ∧ (w.step lower (.rename i new)).1.reg.name i = w.reg.name i ∧
      ∀ k, (w.step lower (.rename i new)).1.formulaRead i k = none := by
  have hg : w.reg.getId lower new = some i := by
    have := getId_of_name h.ok hi
    unfold Reg.getId at this ⊢
    rw [hcase, this]
  have hgr : graphRename lower w.reg i new = some w.reg := by
    unfold graphRename
    rw [if_neg (by rintro (e | e); exact hn e; omega), if_neg hi, hg]
    dsimp only
    rw [if_neg (by simp)]
  simp only [Engine.step]
  rw [hgr]
  refine ⟨rfl, rfl, fun k => ?_⟩
  simp only [Engine.formulaRead, Engine.read]
  rw [find_renameFirst_old h.nodup (fun e => hne e.symm)]
  rfl

/-- A value that is written to a sheet whose name is spelled in another case does not reach the formulas. -/
theorem write_other_case_unseen {w : Engine K V} {i : Nat} {s : String} {cell : K} {v : Option V}
    (hg : w.reg.getId lower s = some i) (hne : s ≠ w.reg.name i) (k : K) :
    (w.step lower (.write s cell v)).1.formulaRead i k = w.formulaRead i k ∧ (w.step lower (.write s cell v)).1.read s cell = v := by
  simp only [Engine.step, Engine.formulaRead]
  constructor
  · unfold Engine.read
    dsimp only
    rw [idFor_old hg, find_modifyFirst, if_neg (fun e => hne e.symm), ensure_find, if_neg hne, Option.or_none]
  · unfold Engine.read
    dsimp only
    rw [find_modifyFirst, if_pos rfl]
    have hf : ∃ d, find (ensure w.store s) s = some d := by
      rw [ensure_find, if_pos rfl]
      cases find w.store s with
      | none => exact ⟨_, rfl⟩
      | some d => exact ⟨d, rfl⟩
    obtain ⟨d, hd⟩ := hf
    rw [hd]
    simp

/-- The copy of a sheet whose name is spelled in another case has no values. -/
theorem duplicate_other_case_empty {w : Engine K V} (h : Aligned lower w) {i : Nat} {s new : String} (hg : w.reg.getId lower s = some i)
    (hne : s ≠ w.reg.name i) (hnn : new ≠ "") (hlen : new.utf8ByteSize ≤ 255) (hfree : w.reg.getId lower new = none) :
    (w.step lower (.duplicate s new)).2 = true ∧ ∀ k, (w.step lower (.duplicate s new)).1.read new k = none := by
  have hs : find w.store s = none := by
    refine find_none.2 fun hm => ?_
    obtain ⟨k1, k2⟩ := h.known s hm
    obtain ⟨j, hj, hj'⟩ := getId_mem h.ok k2 k1
    rw [hg] at hj
    cases hj
    exact hne (by unfold Reg.name; rw [hj']; rfl)
  simp only [Engine.step]
  rw [if_neg (by rw [hg, hfree]; simp; exact ⟨hnn, hlen⟩), hs]
  refine ⟨rfl, fun k => ?_⟩
  simp only [Engine.read]
  rw [ensure_find, find_none.2 (h.free hfree), if_pos rfl]
  rfl

/-! ### Examples -/

/-- Two sheets with a value each; then a copy, a renaming, a removal, and a sheet with the old name. -/
def sampleOps : List (Op Nat Nat) :=
  [.write "Main" 0 (some 1), .write "Data" 0 (some 2), .duplicate "Data" "Copy", .rename 1 "Sums", .add "DATA", .remove 0, .write "Sums" 1 (some 3)]

example : AllCareful toyLower Engine.new sampleOps := by
  refine ⟨⟨by decide, ?_⟩, ⟨by decide, ?_⟩, ⟨by decide, ?_⟩, Or.inr (by decide), ⟨by decide, ?_⟩, trivial, ⟨by decide, ?_⟩, trivial⟩
  · intro i hi; cases hi
  · intro i hi; revert hi; rw [show Reg.getId toyLower _ "Data" = none by decide]; intro hi; cases hi
  · intro i hi; revert hi; rw [show Reg.getId toyLower _ "Data" = some 1 by decide]; intro hi; cases hi; decide
  · intro i hi; revert hi; rw [show Reg.getId toyLower _ "DATA" = none by decide]; intro hi; cases hi
  · intro i hi; revert hi; rw [show Reg.getId toyLower _ "Sums" = some 1 by decide]; intro hi; cases hi; decide

/-- A workbook of two sheets. -/
def twoSheets : Engine Nat Nat := Engine.new.run toyLower [.write "Main" 0 (some 1), .write "Data" 0 (some 2)]

theorem twoSheets_aligned : Aligned toyLower twoSheets := by
  refine (run_refines toyLower_ok [.write "Main" 0 (some 1), .write "Data" 0 (some 2)] new_aligned
    ⟨⟨by decide, ?_⟩, ⟨by decide, ?_⟩, trivial⟩ (by decide)).1
  · intro i hi; cases hi
  · intro i hi; revert hi; rw [show Reg.getId toyLower _ "Data" = none by decide]; intro hi; cases hi

/-- `Data` cannot become `Main`, but now `Main` holds 2 and `Data` holds 1. -/
example : (twoSheets.step toyLower (.rename 1 "Main")).2 = false ∧ (twoSheets.step toyLower (.rename 1 "Main")).1.formulaRead 1 0 = some 1 ∧
    (twoSheets.step toyLower (.rename 1 "Main")).1.formulaRead 0 0 = some 2 := by
  obtain ⟨h1, h2, h3⟩ := refused_rename_swaps (i := 1) (j := 0) twoSheets_aligned (by decide) (by decide) (by decide) (by decide)
  exact ⟨h1, (h2 0).trans (by decide), (h3 0).trans (by decide)⟩

/-- The other way round nothing happens. -/
example : twoSheets.step toyLower (.rename 0 "Data") = (twoSheets, false) :=
  refused_rename_harmless (i := 0) (j := 1) twoSheets_aligned (by decide) (by decide) (by decide) (by decide)

example : twoSheets.formulaRead 1 0 = some 2 ∧ (twoSheets.step toyLower (.rename 1 "DATA")).1.formulaRead 1 0 = none :=
  ⟨by decide, (case_rename_loses (i := 1) twoSheets_aligned (by decide) (by decide) (by decide) (by decide) (by decide)).2.2 0⟩

example : (twoSheets.step toyLower (.write "DATA" 0 (some 7))).1.formulaRead 1 0 = some 2 :=
  (write_other_case_unseen (i := 1) (by decide) (by decide) 0).1.trans (by decide)

example : (twoSheets.step toyLower (.duplicate "DATA" "Copy")).1.read "Copy" 0 = none :=
  (duplicate_other_case_empty (i := 1) twoSheets_aligned (by decide) (by decide) (by decide) (by decide) (by decide)).2 0

example : (twoSheets.step toyLower (.rename 9 "Data")).1.formulaRead 1 0 = none :=
  (rename_missing_loses (i := 9) (j := 1) twoSheets_aligned (by decide) (by decide)).2 0

end Verif.Sheets

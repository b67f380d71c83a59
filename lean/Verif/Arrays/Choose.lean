import Verif.Arrays.SortBy

/-!
# `FILTER` and `UNIQUE`
-/

namespace Verif.Arrays

open Verif.Lookup

/-- The array that a formula shows: a single value is an array of one cell, an error is none. -/
def Res.array : Res → Option Grid
  | .grid g => some g
  | .scalar v => some [[v]]
  | _ => none

theorem array_collapse (g : Grid) : (collapse g).array = some g := by
  unfold collapse
  split <;> rfl

/-! ### FILTER -/

/-- A mark that counts as true: `TRUE`, a number other than 0, or a text with a character. -/
theorem truthy_iff (v : V) : truthy v = true ↔ v = .bool true ∨ (∃ q, v = .num q ∧ q ≠ 0) ∨ ∃ t, v = .text t ∧ t ≠ [] := by
  cases v <;> simp [truthy]

/-- The rows of an array whose mark is true. -/
def keep : Grid → List Bool → Grid
  | row :: g, true :: marks => row :: keep g marks
  | _ :: g, false :: marks => keep g marks
  | _, _ => []

theorem keep_range (g : Grid) (marks : Nat → Bool) :
    ((List.range g.length).filter marks).map (fun r => g.getD r []) = keep g ((List.range g.length).map marks) := by
  induction g generalizing marks with
  | nil => rfl
  | cons row g ih =>
    rw [List.length_cons, List.range_succ_eq_map, List.filter_cons, List.map_cons, List.filter_map, List.map_map]
    have := ih fun r => marks (r + 1)
    have e : ((List.range g.length).filter (marks ∘ Nat.succ)).map (fun r => (row :: g).getD (r + 1) []) = keep g ((List.range g.length).map (marks ∘ Nat.succ)) := by
      exact this
    cases h : marks 0
    · simp only [keep, Bool.false_eq_true, if_false, ← e, List.map_map]
      rfl
    · simp only [keep, if_true, ← e, List.map_cons, List.map_map, List.getD_cons_zero]
      rfl

theorem range_any {α : Type} (l : List α) (d : α) (p : α → Bool) : ((List.range l.length).any fun i => p (l.getD i d)) = l.any p := by
  conv => rhs; rw [← map_range_getD l d]
  rw [List.any_map]
  rfl

/-- `FILTER` with as many rows of marks as the array has rows keeps a row exactly if one of its marks is true, in their order. -/
theorem filter_rows {g inc : Grid} (hg : Rect g) (hi : Rect inc) (h : rows inc = rows g) (ifEmpty : Option Res) :
    filter g inc ifEmpty = if keep g (inc.map fun marks => marks.any truthy) = [] then ifEmpty.getD .badCalc else .grid (keep g (inc.map fun marks => marks.any truthy)) := by
  unfold filter
  rw [if_neg (by rintro (k | k); exacts [hg.some_rows k, hg.some_cols k]), if_neg (by rintro ⟨k, _⟩; exact k h)]
  simp only [h, if_true]
  have e : ((List.range (rows g)).filter fun r => (List.range (cols inc)).any fun c => truthy (cell inc r c)).map (rowOf g) =
      keep g (inc.map fun marks => marks.any truthy) := by
    have e1 : ((List.range (rows g)).filter fun r => (List.range (cols inc)).any fun c => truthy (cell inc r c)) =
        (List.range (rows g)).filter fun r => (inc.getD r []).any truthy := by
      apply List.filter_congr
      intro r hr
      have hr : r < inc.length := by
        have := List.mem_range.1 hr
        rw [← h] at this
        exact this
      have hl : (inc.getD r []).length = cols inc := by
        rw [List.getD_eq_getElem?_getD, List.getElem?_eq_getElem hr]
        exact hi.widths _ (List.getElem_mem hr)
      rw [← hl]
      exact range_any _ _ _
    rw [e1]
    have e2 : ((List.range (rows g)).filter fun r => (inc.getD r []).any truthy).map (rowOf g) =
        ((List.range (rows g)).filter fun r => (inc.getD r []).any truthy).map fun r => g.getD r [] := by
      apply List.map_congr_left
      intro r hr
      exact rowOf_eq hg (List.mem_range.1 (List.mem_filter.1 hr).1)
    rw [e2]
    refine (keep_range g _).trans ?_
    congr 1
    have : g.length = inc.length := h.symm
    rw [this]
    conv => rhs; rw [← map_range_getD inc []]
    rw [List.map_map]
    rfl
  simp only [e]

/-- One column of marks. -/
theorem filter_column {g : Grid} (hg : Rect g) (marks : List V) (h : marks.length = rows g) (ifEmpty : Option Res) :
    filter g (marks.map fun v => [v]) ifEmpty = if keep g (marks.map truthy) = [] then ifEmpty.getD .badCalc else .grid (keep g (marks.map truthy)) := by
  have hr : rows (marks.map fun v => [v]) = rows g := by
    rw [← h]
    exact List.length_map _
  have hi : Rect (marks.map fun v => [v]) := by
    have hne : marks ≠ [] := by
      rintro rfl
      exact hg.some_rows h.symm
    obtain ⟨m, ms, rfl⟩ := List.exists_cons_of_ne_nil hne
    refine ⟨by rw [hr]; exact hg.some_rows, by simp [cols], ?_⟩
    intro row hrow
    obtain ⟨v, _, rfl⟩ := List.mem_map.1 hrow
    rfl
  have := filter_rows hg hi hr ifEmpty
  rw [List.map_map] at this
  simpa only [Function.comp_def, List.any_cons, List.any_nil, Bool.or_false] using this

/-- Two of three rows are kept. -/
example : filter [[.num 1, .num 2], [.num 3, .num 4], [.num 5, .num 6]] [[.bool true], [.num 0], [.num 7]] none = .grid [[.num 1, .num 2], [.num 5, .num 6]] := by
  decide +kernel

/-- One row of marks for several rows keeps all of them or none. -/
theorem filter_one_row {g : Grid} (hg : Rect g) (marks : List V) (h : marks ≠ []) (ifEmpty : Option Res) :
    filter g [marks] ifEmpty = if marks.any truthy then .grid g else ifEmpty.getD .badCalc := by
  unfold filter
  rw [if_neg (by rintro (k | k); exacts [hg.some_rows k, hg.some_cols k]), if_neg (by rintro ⟨_, k⟩; exact k rfl)]
  have e : ∀ r ∈ List.range (rows g), ((List.range (cols [marks])).any fun c => truthy (cell [marks] (if rows [marks] = rows g then r else 0) c)) = marks.any truthy := by
    intro r hr
    have : (if rows [marks] = rows g then r else 0) = 0 := by
      split
      · rename_i hh
        have := List.mem_range.1 hr
        rw [← hh] at this
        simpa [rows] using this
      · rfl
    rw [this]
    exact range_any marks .empty truthy
  rw [List.filter_congr e]
  cases marks.any truthy
  · simp
  · have hne : g ≠ [] := by
      rintro rfl
      exact hg.some_rows rfl
    simp [rows_eq hg, hne]

/-- So columns are never filtered: of `{1,2,3}` with the marks `{TRUE,FALSE,TRUE}` all three stay.  Excel gives `{1,3}`. -/
theorem filter_columns_wrong : filter [[.num 1, .num 2, .num 3]] [[.bool true, .bool false, .bool true]] none = .grid [[.num 1, .num 2, .num 3]] := by decide +kernel

/-- An error among the marks drops its row.  Excel gives the error. -/
theorem filter_error_ignored : filter [[.num 1], [.num 2]] [[.err], [.bool true]] none = .grid [[.num 2]] := by decide +kernel

/-! ### UNIQUE -/

theorem tally_spec (done ks d : List (List V)) (h1 : d.Pairwise (fun a b => done.idxOf a < done.idxOf b)) (h2 : ∀ k, k ∈ d ↔ k ∈ done) :
    ∃ d' : List (List V), tally ks (d.map fun k => (k, done.count k)) = d'.map (fun k => (k, (done ++ ks).count k)) ∧
      d'.Pairwise (fun a b => (done ++ ks).idxOf a < (done ++ ks).idxOf b) ∧ ∀ k, k ∈ d' ↔ k ∈ done ++ ks := by
  induction ks generalizing done d with
  | nil =>
    rw [List.append_nil]
    exact ⟨d, rfl, h1, h2⟩
  | cons k ks ih =>
    have happ : done ++ k :: ks = (done ++ [k]) ++ ks := by rw [List.append_assoc]; rfl
    rw [happ]
    have hidx : ∀ a ∈ done, (done ++ [k]).idxOf a = done.idxOf a := fun a ha => List.idxOf_append_of_mem ha
    have hany : (d.map fun k => (k, done.count k)).any (fun e => decide (e.1 = k)) = decide (k ∈ done) := by
      rw [List.any_map, Bool.eq_iff_iff, List.any_eq_true, decide_eq_true_iff, ← h2]
      constructor
      · rintro ⟨e, he, hk⟩
        have hk : e = k := by simpa using hk
        exact hk ▸ he
      · intro hk
        exact ⟨k, hk, by simp⟩
    unfold tally
    rw [hany]
    by_cases hk : k ∈ done
    · have e : (d.map fun k => (k, done.count k)).map (fun e => if e.1 = k then (e.1, e.2 + 1) else e) = d.map fun a => (a, (done ++ [k]).count a) := by
        rw [List.map_map]
        apply List.map_congr_left
        intro a _
        simp only [Function.comp_def, List.count_append, List.count_singleton]
        by_cases hak : a = k
        · simp [hak]
        · have : ¬ k = a := fun h => hak h.symm
          simp [hak, this]
      simp only [hk, decide_true, if_true, e]
      refine ih (done ++ [k]) d ?_ ?_
      · refine List.Pairwise.imp_of_mem ?_ h1
        intro a b ha hb hab
        rwa [hidx a ((h2 a).1 ha), hidx b ((h2 b).1 hb)]
      · intro a
        rw [h2 a, List.mem_append, List.mem_singleton]
        exact ⟨.inl, by rintro (h | rfl); exacts [h, hk]⟩
    · have e : (d.map fun k => (k, done.count k)) ++ [(k, 1)] = (d ++ [k]).map fun a => (a, (done ++ [k]).count a) := by
        rw [List.map_append]
        congr 1
        · apply List.map_congr_left
          intro a ha
          have : ¬ k = a := by
            rintro rfl
            exact hk ((h2 k).1 ha)
          simp [List.count_append, List.count_singleton, this]
        · simp [List.count_append, List.count_eq_zero.2 hk]
      simp only [hk, decide_false, Bool.false_eq_true, if_false, e]
      refine ih (done ++ [k]) (d ++ [k]) ?_ ?_
      · rw [List.pairwise_append]
        refine ⟨?_, List.pairwise_singleton _ _, ?_⟩
        · refine List.Pairwise.imp_of_mem ?_ h1
          intro a b ha hb hab
          rwa [hidx a ((h2 a).1 ha), hidx b ((h2 b).1 hb)]
        · intro a ha b hb
          rw [List.mem_singleton.1 hb, hidx a ((h2 a).1 ha), List.idxOf_append_of_notMem hk]
          have := List.idxOf_lt_length_of_mem ((h2 a).1 ha)
          omega
      · intro a
        rw [List.mem_append, List.mem_append, h2 a]

/-- The lines of `UNIQUE`, rows or columns: those that occur, or occur once, each one time, in the order of their first places. -/
theorem unique_lines (ks : List (List V)) (once : Bool) :
    (∀ k, k ∈ ((tally ks []).filter fun e => !once || decide (e.2 = 1)).map Prod.fst ↔ k ∈ ks ∧ (once = true → ks.count k = 1)) ∧
      (((tally ks []).filter fun e => !once || decide (e.2 = 1)).map Prod.fst).Pairwise (fun a b => ks.idxOf a < ks.idxOf b) := by
  obtain ⟨d, h1, h2, h3⟩ := tally_spec [] ks [] List.Pairwise.nil (by simp)
  rw [List.map_nil] at h1
  rw [List.nil_append] at h1 h2 h3
  rw [h1, List.filter_map, List.map_map]
  have e : (Prod.fst ∘ fun k => (k, ks.count k)) = (id : List V → List V) := rfl
  rw [e, List.map_id]
  constructor
  · intro k
    rw [List.mem_filter, h3 k]
    cases once <;> simp
  · exact h2.filter _

/-- `UNIQUE` of rows: the rows that occur, or with the third argument those that occur once, each one time, in the order of their first places. -/
theorem unique_rows {g : Grid} (hg : Rect g) (once : Bool) :
    ∃ out, (unique g false once).array = some out ∧ (∀ row, row ∈ out ↔ row ∈ g ∧ (once = true → g.count row = 1)) ∧ out.Pairwise (fun a b => g.idxOf a < g.idxOf b) := by
  obtain ⟨h1, h2⟩ := unique_lines g once
  refine ⟨_, ?_, h1, h2⟩
  unfold unique
  rw [if_neg (by rintro (k | k); exacts [hg.some_rows k, hg.some_cols k])]
  simp only [Bool.false_eq_true, if_false, rows_eq hg, array_collapse]

/-- No row occurs twice. -/
theorem unique_nodup {g out : Grid} (hg : Rect g) (once : Bool) (h : (unique g false once).array = some out) : out.Nodup := by
  obtain ⟨out', h1, _, h3⟩ := unique_rows hg once
  rw [h1] at h
  cases h
  refine h3.imp ?_
  rintro a _ hab rfl
  exact Nat.lt_irrefl _ hab

/-- `UNIQUE` of columns chooses the right columns, but returns each of them as a row. -/
theorem unique_cols {g : Grid} (hg : Rect g) (once : Bool) :
    ∃ out, (unique g true once).array = some out ∧ (∀ col, col ∈ out ↔ col ∈ columns g ∧ (once = true → (columns g).count col = 1)) ∧
      out.Pairwise (fun a b => (columns g).idxOf a < (columns g).idxOf b) := by
  obtain ⟨h1, h2⟩ := unique_lines (columns g) once
  refine ⟨_, ?_, h1, h2⟩
  unfold unique
  rw [if_neg (by rintro (k | k); exacts [hg.some_rows k, hg.some_cols k])]
  simp only [if_true, array_collapse, columns]

/-- Rows of one column, and rows that occur once. -/
example : unique [[.num 1], [.num 2], [.num 1], [.text ['a']]] false false = .grid [[.num 1], [.num 2], [.text ['a']]] ∧
    unique [[.num 1], [.num 2], [.num 1], [.text ['a']]] false true = .grid [[.num 2], [.text ['a']]] := by
  constructor <;> decide +kernel

/-- So the distinct columns of one row come out below each other.  Excel gives `{1,2}`. -/
theorem unique_cols_wrong : unique [[.num 1, .num 2, .num 1]] true false = .grid [[.num 1], [.num 2]] := by decide +kernel

/-- Texts that differ in case are two values.  For Excel they are one. -/
theorem unique_case : unique [[.text ['a']], [.text ['A']]] false false = .grid [[.text ['a']], [.text ['A']]] := by decide +kernel

/-- If no row occurs once the result is an array without rows.  Excel gives `#CALC!`. -/
theorem unique_none : unique [[.num 1], [.num 1]] false true = .grid [] := by decide +kernel

end Verif.Arrays

/-!
# Open ranges, `@` and `:`

Model of `/repo/crates/formualizer-eval/src`:
* `engine/used_extent.rs` 84-270 (`resolve_used_extent_with_fallback` with the policy of evaluation, as `engine/eval.rs` 24086-24121 calls it),
* `interpreter.rs` 1020-1091, 1093-1185 (`@`), `reference.rs` 126-183 (`combine_references`).

Rows and columns count from 1 and have no bounds.  Which rows and columns are used is a parameter.
-/

namespace Verif.Ops.Ranges

/-! ### Open ranges -/

/-- used_extent.rs 9-14, `OpenRangeBounds`. -/
structure Bounds where
  sr : Option Nat
  sc : Option Nat
  er : Option Nat
  ec : Option Nat
deriving DecidableEq

/-- used_extent.rs 18-23, `ResolvedExtent`. -/
structure Extent where
  sr : Nat
  sc : Nat
  er : Nat
  ec : Nat
deriving DecidableEq

/-- The first and the last used row between two columns, or column between two rows. -/
abbrev Hint := Nat → Nat → Option (Nat × Nat)

/-- used_extent.rs 153-175 and 177-199: both sides of one axis are open; `lo` and `hi` are the sides of the other. -/
def bothOpen (hint : Hint) (fallback lo hi : Option Nat) (s e : Option Nat) : Option Nat × Option Nat :=
  if s = none ∧ e = none then
    match hint (lo.getD 1) (hi.getD (lo.getD 1)) with
    | some (_, last) => (some 1, some last)
    | none =>
      match fallback with
      | some f => (some 1, some f)
      | none => (some 1, none)
  else (s, e)

/-- used_extent.rs 201-210 and 223-232: the end of one axis is open. -/
def openEnd (hint : Hint) (fallback lo hi : Option Nat) (s e : Option Nat) : Option Nat :=
  if s ≠ none ∧ e = none then
    match hint (lo.getD 1) (hi.getD (lo.getD 1)) with
    | some (_, last) => some last
    | none => fallback
  else e

/-- used_extent.rs 211-221 and 233-243: the start of one axis is open. -/
def openStart (s e : Option Nat) : Option Nat := if e ≠ none ∧ s = none then some 1 else s

/-- used_extent.rs 84-252 with the policy of evaluation. -/
def resolve (usedRows usedCols : Hint) (maxRow maxCol : Option Nat) (b : Bounds) : Option Extent :=
  let rows := bothOpen usedRows maxRow b.sc b.ec b.sr b.er
  let cols := bothOpen usedCols maxCol rows.1 rows.2 b.sc b.ec
  let er := openEnd usedRows maxRow cols.1 cols.2 rows.1 rows.2
  let sr := openStart rows.1 er
  let ec := openEnd usedCols maxCol sr er cols.1 cols.2
  let sc := openStart cols.1 ec
  let e : Extent := ⟨sr.getD 1, sc.getD 1, er.getD (sr.getD 1 - 1), ec.getD (sc.getD 1 - 1)⟩
  if e.sr ≤ e.er ∧ e.sc ≤ e.ec then some e else none

/-! ### `@` -/

/-- The value of `@`: that of a cell, or `#VALUE!`. -/
abbrev Got (V : Type) := Option V

/-- interpreter.rs 1136-1175: `@` before a range with four sides; `row` and `col` are the place of the formula. -/
def atClosed {V : Type} (get : Nat → Nat → V) (row col sr sc er ec : Nat) : Got V :=
  let (sr, er) := if sr > er then (er, sr) else (sr, er)
  let (sc, ec) := if sc > ec then (ec, sc) else (sc, ec)
  if sc = ec then if row < sr ∨ row > er then none else some (get row sc)
  else if sr = er then if col < sc ∨ col > ec then none else some (get sr col)
  else if row < sr ∨ row > er ∨ col < sc ∨ col > ec then none else some (get row col)

/-- interpreter.rs 1037-1084: `@` before a range that is read first; the cells of the view are those of the sheet. -/
def atView {V : Type} (get : Nat → Nat → V) (row col : Nat) (view : Option Extent) : Got V :=
  match view with
  | none => none
  | some e =>
    if e.sr = e.er ∧ e.sc = e.ec then some (get e.sr e.sc)
    else if e.sc = e.ec then if row < e.sr ∨ row > e.er then none else some (get row e.sc)
    else if e.sr = e.er then if col < e.sc ∨ col > e.ec then none else some (get e.sr col)
    else if row < e.sr ∨ row > e.er ∨ col < e.sc ∨ col > e.ec then none else some (get row col)

/-- interpreter.rs 1093-1185: `@` before a range. -/
def atRange {V : Type} (usedRows usedCols : Hint) (maxRow maxCol : Option Nat) (get : Nat → Nat → V) (row col : Nat) (b : Bounds) : Got V :=
  match b.sr, b.sc, b.er, b.ec with
  | some sr, some sc, some er, some ec => atClosed get row col sr sc er ec
  | _, _, _, _ => atView get row col (resolve usedRows usedCols maxRow maxCol b)

/-! ### `:` -/

/-- reference.rs 126-183, `combine_references` of cells and closed ranges with their sheets. -/
def combine (a b : Option Nat × Extent) : Option (Option Nat × Extent) :=
  if a.1 ≠ b.1 then none else
  some (a.1, ⟨min a.2.sr b.2.sr, min a.2.sc b.2.sc, max a.2.er b.2.er, max a.2.ec b.2.ec⟩)

/-! ### Specification -/

/-- A place lies in the range as it is written. -/
def Inside (b : Bounds) (r c : Nat) : Prop :=
  1 ≤ r ∧ 1 ≤ c ∧ (∀ x, b.sr = some x → x ≤ r) ∧ (∀ x, b.er = some x → r ≤ x) ∧ (∀ x, b.sc = some x → x ≤ c) ∧ (∀ x, b.ec = some x → c ≤ x)

/-- A place lies in a rectangle. -/
def Extent.Has (e : Extent) (r c : Nat) : Prop := e.sr ≤ r ∧ r ≤ e.er ∧ e.sc ≤ c ∧ c ≤ e.ec

/-- The hints are right: no used cell lies behind the last row or column that they give. -/
structure Right (used : Nat → Nat → Prop) (usedRows usedCols : Hint) : Prop where
  rows : ∀ c1 c2 r c, used r c → c1 ≤ c → c ≤ c2 → ∃ lo hi, usedRows c1 c2 = some (lo, hi) ∧ r ≤ hi
  cols : ∀ r1 r2 r c, used r c → r1 ≤ r → r ≤ r2 → ∃ lo hi, usedCols r1 r2 = some (lo, hi) ∧ c ≤ hi

/-- The rectangle that is read contains every used cell of the range, if one of its two ends is written. -/
theorem extent_covers_partial {used : Nat → Nat → Prop} {usedRows usedCols : Hint} (maxRow maxCol : Option Nat) (hr : Right used usedRows usedCols) {b : Bounds}
    (hend : b.er ≠ none ∨ b.ec ≠ none) {r c : Nat} (hu : used r c) (hin : Inside b r c) : ∃ e, resolve usedRows usedCols maxRow maxCol b = some e ∧ e.Has r c := by
  obtain ⟨h1, h2, hsr, her, hsc, hec⟩ := hin
  obtain ⟨sr, sc, er, ec⟩ := b
  simp only at *
  have ok : ∀ e : Extent, e.sr ≤ r → r ≤ e.er → e.sc ≤ c → c ≤ e.ec → (resolve usedRows usedCols maxRow maxCol ⟨sr, sc, er, ec⟩ = if e.sr ≤ e.er ∧ e.sc ≤ e.ec then some e else none) →
      ∃ e, resolve usedRows usedCols maxRow maxCol ⟨sr, sc, er, ec⟩ = some e ∧ e.Has r c := by
    intro e k1 k2 k3 k4 k5
    exact ⟨e, by rw [k5, if_pos ⟨by omega, by omega⟩], k1, k2, k3, k4⟩
  cases er with
  | some er =>
    have her := her er rfl
    cases ec with
    | some ec =>
      have hec := hec ec rfl
      refine ok ⟨sr.getD 1, sc.getD 1, er, ec⟩ ?_ her ?_ hec ?_
      · cases sr with
        | none => exact h1
        | some x => exact hsr x rfl
      · cases sc with
        | none => exact h2
        | some x => exact hsc x rfl
      · cases sr <;> cases sc <;> simp [resolve, bothOpen, openEnd, openStart]
    | none =>
      have hsr' : sr.getD 1 ≤ r := by
        cases sr with
        | none => exact h1
        | some x => exact hsr x rfl
      obtain ⟨lo, hi, hh, hle⟩ := hr.cols (sr.getD 1) er r c hu hsr' her
      refine ok ⟨sr.getD 1, sc.getD 1, er, hi⟩ hsr' her ?_ hle ?_
      · cases sc with
        | none => exact h2
        | some x => exact hsc x rfl
      · cases sr <;> cases sc <;> simp_all [resolve, bothOpen, openEnd, openStart]
  | none =>
    cases ec with
    | none =>
      rcases hend with h | h <;> exact absurd rfl h
    | some ec =>
      have hec := hec ec rfl
      have hsc' : sc.getD 1 ≤ c := by
        cases sc with
        | none => exact h2
        | some x => exact hsc x rfl
      obtain ⟨lo, hi, hh, hle⟩ := hr.rows (sc.getD 1) ec r c hu hsc' hec
      refine ok ⟨sr.getD 1, sc.getD 1, hi, ec⟩ ?_ hle hsc' hec ?_
      · cases sr with
        | none => exact h1
        | some x => exact hsr x rfl
      · cases sr <;> cases sc <;> simp_all [resolve, bothOpen, openEnd, openStart]

/-- The rectangle that is read lies in the range. -/
theorem extent_inside {usedRows usedCols : Hint} {maxRow maxCol : Option Nat} {b : Bounds} {e : Extent} (h : resolve usedRows usedCols maxRow maxCol b = some e)
    (hpos : (∀ x, b.sr = some x → 1 ≤ x) ∧ ∀ x, b.sc = some x → 1 ≤ x) {r c : Nat} (hin : e.Has r c) : Inside b r c := by
  obtain ⟨sr, sc, er, ec⟩ := b
  obtain ⟨h1, h2, h3, h4⟩ := hin
  have key : ∀ (hint hint' : Hint) (fb lo hi lo' hi' s e' : Option Nat), (∀ x, s = some x → (openStart (bothOpen hint fb lo hi s e').1 (openEnd hint' fb lo' hi' (bothOpen hint fb lo hi s e').1 (bothOpen hint fb lo hi s e').2)).getD 1 = x) ∧
      (s = none → (openStart (bothOpen hint fb lo hi s e').1 (openEnd hint' fb lo' hi' (bothOpen hint fb lo hi s e').1 (bothOpen hint fb lo hi s e').2)).getD 1 = 1) ∧
      ∀ x d, e' = some x → (openEnd hint' fb lo' hi' (bothOpen hint fb lo hi s e').1 (bothOpen hint fb lo hi s e').2).getD d = x := by
    intro hint hint' fb lo hi lo' hi' s e'
    cases s with
    | some s => cases e' <;> simp [bothOpen, openStart, openEnd]
    | none =>
      cases e' with
      | some e' => simp [bothOpen, openStart, openEnd]
      | none =>
        refine ⟨fun x hx => (by cases hx), fun _ => ?_, fun x d hx => (by cases hx)⟩
        simp only [bothOpen, and_self, if_true]
        cases hint (lo.getD 1) (hi.getD (lo.getD 1)) with
        | some p => simp [openStart, openEnd]
        | none =>
          cases fb with
          | some f => simp [openStart, openEnd]
          | none => simp [openStart]
  unfold resolve at h
  simp only at h
  split at h
  · cases h
    simp only at h1 h2 h3 h4
    refine ⟨?_, ?_, ?_, ?_, ?_, ?_⟩
    · cases sr with
      | none => rw [(key _ _ _ _ _ _ _ _ _).2.1 rfl] at h1; exact h1
      | some x => rw [(key _ _ _ _ _ _ _ _ _).1 x rfl] at h1; exact Nat.le_trans (hpos.1 x rfl) h1
    · cases sc with
      | none => rw [(key _ _ _ _ _ _ _ _ _).2.1 rfl] at h3; exact h3
      | some x => rw [(key _ _ _ _ _ _ _ _ _).1 x rfl] at h3; exact Nat.le_trans (hpos.2 x rfl) h3
    · rintro x rfl
      rw [(key _ _ _ _ _ _ _ _ _).1 x rfl] at h1
      exact h1
    · rintro x rfl
      rw [(key _ _ _ _ _ _ _ _ _).2.2 x _ rfl] at h2
      exact h2
    · rintro x rfl
      rw [(key _ _ _ _ _ _ _ _ _).1 x rfl] at h3
      exact h3
    · rintro x rfl
      rw [(key _ _ _ _ _ _ _ _ _).2.2 x _ rfl] at h4
      exact h4
  · cases h

/-- A range with both ends open, from A1 on, misses used cells: with used cells A1 and B5 only A1 is read. -/
theorem extent_both_open : ∃ (used : Nat → Nat → Prop) (usedRows usedCols : Hint), Right used usedRows usedCols ∧ used 5 2 ∧
    resolve usedRows usedCols none none ⟨some 1, some 1, none, none⟩ = some ⟨1, 1, 1, 1⟩ := by
  refine ⟨fun r c => (r = 1 ∧ c = 1) ∨ (r = 5 ∧ c = 2), fun c1 c2 => if c1 ≤ 2 ∧ 2 ≤ c2 then some (1, 5) else if c1 ≤ 1 ∧ 1 ≤ c2 then some (1, 1) else none,
    fun r1 r2 => if r1 ≤ 5 ∧ 5 ≤ r2 then some (1, 2) else if r1 ≤ 1 ∧ 1 ≤ r2 then some (1, 1) else none, ⟨?_, ?_⟩, .inr ⟨rfl, rfl⟩, by decide⟩
  · rintro c1 c2 r c (⟨rfl, rfl⟩ | ⟨rfl, rfl⟩) h1 h2
    · by_cases h : c1 ≤ 2 ∧ 2 ≤ c2
      · exact ⟨1, 5, by rw [if_pos h], by omega⟩
      · exact ⟨1, 1, by rw [if_neg h, if_pos ⟨h1, h2⟩], by omega⟩
    · exact ⟨1, 5, by rw [if_pos ⟨h1, h2⟩], by omega⟩
  · rintro r1 r2 r c (⟨rfl, rfl⟩ | ⟨rfl, rfl⟩) h1 h2
    · by_cases h : r1 ≤ 5 ∧ 5 ≤ r2
      · exact ⟨1, 2, by rw [if_pos h], by omega⟩
      · exact ⟨1, 1, by rw [if_neg h, if_pos ⟨h1, h2⟩], by omega⟩
    · exact ⟨1, 2, by rw [if_pos ⟨h1, h2⟩], by omega⟩

/-! ### `@` -/

/-- `@` before a range of one column gives the cell in the row of the formula, before a range of one row that in its column; outside it is `#VALUE!`.  The order in which the
corners are written does not matter. -/
theorem at_closed {V : Type} (get : Nat → Nat → V) (row col a b c : Nat) :
    atClosed get row col a c b c = (if min a b ≤ row ∧ row ≤ max a b then some (get row c) else none) ∧
      (a ≠ b → atClosed get row col c a c b = if min a b ≤ col ∧ col ≤ max a b then some (get c col) else none) := by
  constructor
  · unfold atClosed
    by_cases h : a > b
    · simp only [if_pos h, Nat.lt_irrefl, gt_iff_lt, if_false, if_true]
      rw [Nat.min_eq_right (by omega), Nat.max_eq_left (by omega)]
      by_cases k : b ≤ row ∧ row ≤ a
      · rw [if_pos k, if_neg (by omega)]
      · rw [if_neg k, if_pos (by omega)]
    · simp only [if_neg h, Nat.lt_irrefl, gt_iff_lt, if_false, if_true]
      rw [Nat.min_eq_left (by omega), Nat.max_eq_right (by omega)]
      by_cases k : a ≤ row ∧ row ≤ b
      · rw [if_pos k, if_neg (by omega)]
      · rw [if_neg k, if_pos (by omega)]
  · intro hne
    unfold atClosed
    by_cases h : a > b
    · simp only [if_pos h, Nat.lt_irrefl, gt_iff_lt, if_false, if_true]
      rw [if_neg (by omega), Nat.min_eq_right (by omega), Nat.max_eq_left (by omega)]
      by_cases k : b ≤ col ∧ col ≤ a
      · rw [if_pos k, if_neg (by omega)]
      · rw [if_neg k, if_pos (by omega)]
    · simp only [if_neg h, Nat.lt_irrefl, gt_iff_lt, if_false, if_true]
      rw [if_neg (by omega), Nat.min_eq_left (by omega), Nat.max_eq_right (by omega)]
      by_cases k : a ≤ col ∧ col ≤ b
      · rw [if_pos k, if_neg (by omega)]
      · rw [if_neg k, if_pos (by omega)]

/-- `@` before a rectangle of several rows and columns gives the cell at the place of the formula; outside it is `#VALUE!`. -/
theorem at_rectangle {V : Type} (get : Nat → Nat → V) (row col : Nat) {a b c d : Nat} (hab : a ≠ b) (hcd : c ≠ d) :
    atClosed get row col a c b d = if min a b ≤ row ∧ row ≤ max a b ∧ min c d ≤ col ∧ col ≤ max c d then some (get row col) else none := by
  have key : ∀ a b c d : Nat, a < b → c < d → (if c = d then if row < a ∨ row > b then none else some (get row c)
      else if a = b then if col < c ∨ col > d then none else some (get a col)
      else if row < a ∨ row > b ∨ col < c ∨ col > d then none else some (get row col)) =
      if a ≤ row ∧ row ≤ b ∧ c ≤ col ∧ col ≤ d then some (get row col) else none := by
    intro a b c d h h'
    rw [if_neg (by omega), if_neg (by omega)]
    by_cases k : a ≤ row ∧ row ≤ b ∧ c ≤ col ∧ col ≤ d
    · rw [if_pos k, if_neg (by omega)]
    · rw [if_neg k, if_pos (by omega)]
  unfold atClosed
  by_cases h : a > b <;> by_cases h' : c > d <;> simp only [if_pos, if_neg, h, h', not_false_eq_true, if_true, if_false]
  · rw [key b a d c h h', Nat.min_eq_right (by omega), Nat.max_eq_left (by omega), Nat.min_eq_right (by omega), Nat.max_eq_left (by omega)]
  · rw [key b a c d h (by omega), Nat.min_eq_right (by omega), Nat.max_eq_left (by omega), Nat.min_eq_left (by omega), Nat.max_eq_right (by omega)]
  · rw [key a b d c (by omega) h', Nat.min_eq_left (by omega), Nat.max_eq_right (by omega), Nat.min_eq_right (by omega), Nat.max_eq_left (by omega)]
  · rw [key a b c d (by omega) (by omega), Nat.min_eq_left (by omega), Nat.max_eq_right (by omega), Nat.min_eq_left (by omega), Nat.max_eq_right (by omega)]

example : atClosed (fun r c => (r, c)) 3 3 5 2 1 4 = some (3, 3) := by decide

/-- A closed range is read by its corners, whatever is used. -/
theorem at_range_closed {V : Type} (usedRows usedCols : Hint) (maxRow maxCol : Option Nat) (get : Nat → Nat → V) (row col sr sc er ec : Nat) :
    atRange usedRows usedCols maxRow maxCol get row col ⟨some sr, some sc, some er, some ec⟩ = atClosed get row col sr sc er ec := rfl

/-- `@1:1`, where the last used column of the row is behind the first and not before the formula: the cell in the column of the formula. -/
theorem at_row_partial {V : Type} (usedRows usedCols : Hint) (maxRow maxCol : Option Nat) (get : Nat → Nat → V) {row col r lo hi : Nat} (h : usedCols r r = some (lo, hi))
    (h2 : 2 ≤ hi) (h1 : 1 ≤ col) (hcol : col ≤ hi) : atRange usedRows usedCols maxRow maxCol get row col ⟨some r, none, some r, none⟩ = some (get r col) := by
  have e : resolve usedRows usedCols maxRow maxCol ⟨some r, none, some r, none⟩ = some ⟨r, 1, r, hi⟩ := by
    simp [resolve, bothOpen, openEnd, openStart, h]
    omega
  simp only [atRange]
  rw [e]
  simp only [atView]
  rw [if_neg (by omega), if_neg (by omega), if_pos trivial, if_neg (by omega)]

/-- `@C2:D`, an open range of several columns: the cell at the place of the formula within the range and its used rows. -/
theorem at_open_rectangle {V : Type} (usedRows usedCols : Hint) (maxRow maxCol : Option Nat) (get : Nat → Nat → V) {row col sr sc ec lo hi : Nat} (h : usedRows sc ec = some (lo, hi))
    (hc : sc < ec) (hr : sr < hi) : atRange usedRows usedCols maxRow maxCol get row col ⟨some sr, some sc, none, some ec⟩ =
      if sr ≤ row ∧ row ≤ hi ∧ sc ≤ col ∧ col ≤ ec then some (get row col) else none := by
  have e : resolve usedRows usedCols maxRow maxCol ⟨some sr, some sc, none, some ec⟩ = some ⟨sr, sc, hi, ec⟩ := by
    simp [resolve, bothOpen, openEnd, openStart, h]
    omega
  simp only [atRange]
  rw [e]
  simp only [atView]
  rw [if_neg (by omega), if_neg (by omega), if_neg (by omega)]
  by_cases k : sr ≤ row ∧ row ≤ hi ∧ sc ≤ col ∧ col ≤ ec
  · rw [if_pos k, if_neg (by omega)]
  · rw [if_neg k, if_pos (by omega)]

theorem resolve_column (usedRows usedCols : Hint) (maxRow maxCol : Option Nat) {c lo hi : Nat} (h : usedRows c c = some (lo, hi)) (hi1 : 1 ≤ hi) :
    resolve usedRows usedCols maxRow maxCol ⟨none, some c, none, some c⟩ = some ⟨1, c, hi, c⟩ := by
  simp [resolve, bothOpen, openEnd, openStart, h, hi1]

/-- `@A:A`, where the last used row of the column is below the first and not above the formula: the cell in the row of the formula. -/
theorem at_column_partial {V : Type} (usedRows usedCols : Hint) (maxRow maxCol : Option Nat) (get : Nat → Nat → V) {row col c lo hi : Nat} (h : usedRows c c = some (lo, hi))
    (h2 : 2 ≤ hi) (h1 : 1 ≤ row) (hrow : row ≤ hi) : atRange usedRows usedCols maxRow maxCol get row col ⟨none, some c, none, some c⟩ = some (get row c) := by
  simp only [atRange]
  rw [resolve_column usedRows usedCols maxRow maxCol h (by omega)]
  simp only [atView]
  rw [if_neg (by omega), if_pos trivial, if_neg (by omega)]

/-- Below the last used row of the column `@A:A` is `#VALUE!`.  Excel gives the value of the empty cell, 0. -/
theorem at_column_below {V : Type} (usedRows usedCols : Hint) (maxRow maxCol : Option Nat) (get : Nat → Nat → V) {row col c lo hi : Nat} (h : usedRows c c = some (lo, hi))
    (h2 : 2 ≤ hi) (hrow : hi < row) : atRange usedRows usedCols maxRow maxCol get row col ⟨none, some c, none, some c⟩ = none := by
  simp only [atRange]
  rw [resolve_column usedRows usedCols maxRow maxCol h (by omega)]
  simp only [atView]
  rw [if_neg (by omega), if_pos trivial, if_pos (by omega)]

/-- If only the first row of the column is used, `@A:A` gives the value of A1 in every row.  Excel gives the value of the cell in the row of the formula. -/
theorem at_column_single {V : Type} (usedRows usedCols : Hint) (maxRow maxCol : Option Nat) (get : Nat → Nat → V) (row col : Nat) {c lo : Nat} (h : usedRows c c = some (lo, 1)) :
    atRange usedRows usedCols maxRow maxCol get row col ⟨none, some c, none, some c⟩ = some (get 1 c) := by
  simp only [atRange]
  rw [resolve_column usedRows usedCols maxRow maxCol h (by omega)]
  simp [atView]

/-! ### `:` -/

/-- `:` between two references on the same sheet is the smallest rectangle that contains both. -/
theorem combine_smallest {a b : Option Nat × Extent} (hs : a.1 = b.1) (ha : a.2.sr ≤ a.2.er ∧ a.2.sc ≤ a.2.ec) (hb : b.2.sr ≤ b.2.er ∧ b.2.sc ≤ b.2.ec) :
    ∃ e, combine a b = some (a.1, e) ∧ (∀ r c, a.2.Has r c ∨ b.2.Has r c → e.Has r c) ∧
      ∀ e' : Extent, (∀ r c, a.2.Has r c ∨ b.2.Has r c → e'.Has r c) → ∀ r c, e.Has r c → e'.Has r c := by
  refine ⟨⟨min a.2.sr b.2.sr, min a.2.sc b.2.sc, max a.2.er b.2.er, max a.2.ec b.2.ec⟩, by simp [combine, hs], ?_, ?_⟩
  · intro r c h
    unfold Extent.Has at *
    simp only
    omega
  · intro e' h r c hin
    have h1 := h a.2.sr a.2.sc (.inl ⟨by omega, by omega, by omega, by omega⟩)
    have h2 := h a.2.er a.2.ec (.inl ⟨by omega, by omega, by omega, by omega⟩)
    have h3 := h b.2.sr b.2.sc (.inr ⟨by omega, by omega, by omega, by omega⟩)
    have h4 := h b.2.er b.2.ec (.inr ⟨by omega, by omega, by omega, by omega⟩)
    unfold Extent.Has at *
    simp only at hin
    omega

/-- References on different sheets, or of which one names its sheet and the other does not, are refused. -/
theorem combine_sheets {a b : Option Nat × Extent} : combine a b = none ↔ a.1 ≠ b.1 := by
  unfold combine
  split <;> simp_all

/-- A range whose corners are written the other way round is not covered: `(B5:A1):C3` is B3:C3. -/
theorem combine_reversed : combine (none, ⟨5, 2, 1, 1⟩) (none, ⟨3, 3, 3, 3⟩) = some (none, ⟨3, 2, 3, 3⟩) := by decide

example : resolve (fun _ _ => some (2, 7)) (fun _ _ => some (1, 3)) (some 1048576) (some 16384) ⟨some 3, some 1, none, some 2⟩ = some ⟨3, 1, 7, 2⟩ := by decide

end Verif.Ops.Ranges

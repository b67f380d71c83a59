import Mathlib.Data.Rat.Defs
import Mathlib.Algebra.Order.Field.Rat

/-!
# SUMIF, AVERAGEIF, COUNTIF and SUMIFS over rectangles, and the cells they read

Model of `/repo/crates/formualizer-eval/src`:
* `builtins/math/criteria_aggregates.rs` 88-690 (`eval_if_family`), for criteria on
  numbers, with ranges of any size,
* `engine/range_view.rs` 67-182 (`RowChunkIterator`), 286-302 (`expand_to`) and
  1043-1152 (`slice_numbers`),
* `engine/eval.rs` 2328-2420 (`compute_criteria_mask`, numeric criteria) and
  24490-24505 (`build_criteria_mask`).

Numbers are rationals; the numbers lane of a sheet is a function of row and column,
`none` where the cell holds no number. How other kinds of values meet criteria is
the subject of `Verif.Lookup.Criteria`, for one column.
-/

namespace Verif.SumIf

/-- A stored sheet: `ArrowSheet::nrows`, `chunk_starts` and what the numbers lane
shows through the overlays. -/
structure Sheet where
  nrows : Nat
  starts : List Nat
  num : Nat → Nat → Option ℚ

/-- A view: `RangeView`, with the number of its sheet for the store it borrows. -/
structure View where
  sheet : Nat
  sr : Nat
  sc : Nat
  rows : Nat
  cols : Nat
deriving DecidableEq, Repr

/-- The sheets of a workbook by number. -/
abbrev Book := Nat → Sheet

/-- The part of a chunk with rows `s` to `e` (not included) in the rows `sr` to `hi`
(not included): range_view.rs 97-107 and 175-178, as first row relative to the view
and length. -/
def seg (sr hi s e : Nat) : List (Nat × Nat) :=
  if max s sr < min e hi then [(max s sr - sr, min e hi - max s sr)] else []

/-- The chunks in turn: range_view.rs 87-95. The last ends with the sheet. -/
def segs (nrows sr hi : Nat) : List Nat → List (Nat × Nat)
  | [] => []
  | [s] => seg sr hi s nrows
  | s :: t :: l => seg sr hi s t ++ segs nrows sr hi (t :: l)

/-- `iter_row_chunks`: range_view.rs 67-182. A view without rows is not walked. -/
def chunks (s : Sheet) (v : View) : List (Nat × Nat) := segs s.nrows v.sr (v.sr + v.rows) s.starts

/-- `expand_to`: range_view.rs 286-302. The top left corner stays. -/
def View.expandTo (v : View) (rows cols : Nat) : View := { v with rows := rows, cols := cols }

/-- A number of a view by relative place: `slice_numbers`, range_view.rs 1043-1152.
Rows past the view are read too: the slice is taken from the sheet. Columns past the
view have no slice. -/
def View.lane (b : Book) (v : View) (r c : Nat) : Option ℚ :=
  if c < v.cols then (b v.sheet).num (v.sr + r) (v.sc + c) else none

/-- The mask of a criterion on numbers: eval.rs 2396-2420. Where there is no number it
is null. -/
def mask (b : Book) (v : View) (p : ℚ → Bool) (r c : Nat) : Option Bool := (v.lane b r c).map p

/-- The numbers of one column of one chunk of the target where the mask holds:
criteria_aggregates.rs 590-600 (`filter_array`, then the numbers that are valid). -/
def taken (b : Book) (hit : Nat → Nat → Bool) (t : View) (s l c : Nat) : List ℚ :=
  (List.range l).filterMap (fun i => if hit (s + i) c then t.lane b (s + i) c else none)

/-- All numbers taken: the loops over chunks and columns, criteria_aggregates.rs
217-640. -/
def takenAll (b : Book) (hit : Nat → Nat → Bool) (t : View) (cs : List (Nat × Nat)) (cols : Nat) :
    List ℚ :=
  cs.flatMap (fun k => (List.range cols).flatMap (fun c => taken b hit t k.1 k.2 c))

/-- Where the single criterion is met. -/
def hits (b : Book) (r : View) (p : ℚ → Bool) (i c : Nat) : Bool := mask b r p i c == some true

/-- The numbers SUMIF and AVERAGEIF take: criteria_aggregates.rs 109-138 and 205-640.
The target grows or shrinks to the size of the criteria range, which also drives the
loop. Without a target the criteria range is the target. -/
def chosen (b : Book) (r : View) (p : ℚ → Bool) (t : Option View) : List ℚ :=
  takenAll b (hits b r p) ((t.map (·.expandTo r.rows r.cols)).getD r) (chunks (b r.sheet) r) r.cols

/-- SUMIF: criteria_aggregates.rs 660-664. -/
def sumIf (b : Book) (r : View) (p : ℚ → Bool) (t : Option View) : ℚ := (chosen b r p t).sum

/-- COUNTIF: criteria_aggregates.rs 580-587. -/
def countIf (b : Book) (r : View) (p : ℚ → Bool) : Nat :=
  ((chunks (b r.sheet) r).flatMap (fun k => (List.range r.cols).flatMap (fun c =>
    (List.range k.2).filter (fun i => hits b r p (k.1 + i) c)))).length

/-- AVERAGEIF: criteria_aggregates.rs 669-679; `none` is `#DIV/0!`. -/
def averageIf (b : Book) (r : View) (p : ℚ → Bool) (t : Option View) : Option ℚ :=
  if (chosen b r p t).length = 0 then none
  else some ((chosen b r p t).sum / ((chosen b r p t).length : ℚ))

/-- A criterion of SUMIFS: its range, what numbers meet it and whether an empty cell
does (`criteria_match` with `Empty`). -/
structure Spec where
  view : View
  p : ℚ → Bool
  blank : Bool

/-- The rows of a view that its sheet stores: the length of the mask, eval.rs
2396-2420 and 24500-24503. -/
def stored (b : Book) (v : View) : Nat := min v.rows ((b v.sheet).nrows - v.sr)

/-- The mask of a criterion in SUMIFS: criteria_aggregates.rs 257-312 (rows past the
mask count as empty) and 314-577 (columns past the range have no mask; every cell of
them counts as empty). -/
def Spec.mask (b : Book) (s : Spec) (i c : Nat) : Option Bool :=
  if c < s.view.cols ∧ i < stored b s.view then Verif.SumIf.mask b s.view s.p i c
  else some s.blank

/-- A range of one cell: criteria_aggregates.rs 174-183. -/
def Spec.single (s : Spec) : Bool := s.view.rows == 1 && s.view.cols == 1

/-- A criterion on a range of one cell is decided once: criteria_aggregates.rs 239-254. -/
def Spec.holds (b : Book) (s : Spec) : Bool :=
  ((b s.view.sheet).num s.view.sr s.view.sc).elim s.blank s.p

/-- Where all criteria of SUMIFS are met. -/
def allHit (b : Book) (specs : List Spec) (i c : Nat) : Bool :=
  specs.all (fun s => if s.single then s.holds b else s.mask b i c == some true)

/-- The widest of the ranges: criteria_aggregates.rs 191-203. -/
def width (t : View) (specs : List Spec) : Nat :=
  (specs.filter (fun s => !s.single)).foldl (fun w s => max w s.view.cols) t.cols

/-- SUMIFS: the rows of the target drive the loop, criteria_aggregates.rs 139-690. -/
def sumIfs (b : Book) (t : View) (specs : List Spec) : ℚ :=
  (takenAll b (allHit b specs) t (chunks (b t.sheet) t) (width t specs)).sum

/-! ### Specification -/

/-- A cell of the workbook. -/
structure Place where
  sheet : Nat
  row : Nat
  col : Nat
deriving DecidableEq, Repr

/-- The number in a cell. -/
def Book.at (b : Book) (x : Place) : Option ℚ := (b x.sheet).num x.row x.col

/-- The cell of a range at an offset. -/
def View.cell (v : View) (i j : Nat) : Place := ⟨v.sheet, v.sr + i, v.sc + j⟩

/-- The cells written in a range. -/
def View.has (v : View) (x : Place) : Prop :=
  x.sheet = v.sheet ∧ v.sr ≤ x.row ∧ x.row < v.sr + v.rows ∧ v.sc ≤ x.col ∧ x.col < v.sc + v.cols

instance (v : View) (x : Place) : Decidable (v.has x) := by unfold View.has; infer_instance

/-- Chunks begin at row 0 and follow one another. -/
def Sheet.WF (s : Sheet) : Prop :=
  (s.nrows = 0 ∨ s.starts.head? = some 0) ∧ s.starts.IsChain (· ≤ ·) ∧
  (∀ x ∈ s.starts, x ≤ s.nrows) ∧ ∀ r c, s.nrows ≤ r → s.num r c = none

/-- A number or nothing. -/
def amount (b : Book) (x : Place) : ℚ := (b.at x).getD 0

/-- The cell holds a number that meets the criterion. -/
def meets (b : Book) (p : ℚ → Bool) (x : Place) : Bool := (b.at x).any p

end Verif.SumIf

import Mathlib.Data.Rat.Floor
import Mathlib.Algebra.Order.Floor.Ring

/-! # INDEX, OFFSET and the size of references (C97)

Model of `formualizer-eval/src/builtins/reference_fns.rs` (INDEX, OFFSET), of the sizes in
`builtins/lookup/reference_info.rs` (ROW, ROWS, COLUMN, COLUMNS) and of the part of `Engine::resolve_range_view`
that turns a reference into cells. Rows and columns are one-based, as in `ReferenceType`. -/

namespace Verif.RefFn

/-- The errors a cell can show that occur here. -/
inductive Err where
  | ref
  | value
deriving DecidableEq, Repr

/-- A result, an error, or a panic. -/
inductive Out (α : Type) where
  | ok (a : α)
  | err (e : Err)
  | panic
deriving DecidableEq, Repr

/-- Sequencing: the `?` of Rust. -/
def Out.bind {α β : Type} : Out α → (α → Out β) → Out β
  | .ok a, f => f a
  | .err e, _ => .err e
  | .panic, _ => .panic

/-- `ReferenceType::Cell` and `ReferenceType::Range` (parser.rs 242-288). A bound may be missing. The anchors
(`$`) are left out: INDEX and OFFSET set none and read none. -/
inductive Ref where
  | cell (sheet : Option String) (row col : Nat)
  | range (sheet : Option String) (sr sc er ec : Option Nat)
deriving DecidableEq, Repr

/-- The tuple of `resolve_reference_bounds`. -/
structure Bounds where
  sheet : Option String
  sr : Nat
  sc : Nat
  er : Nat
  ec : Nat
deriving DecidableEq, Repr

/-- A literal as INDEX and OFFSET look at it: a number (`Number` is a finite double, taken as a rational;
`Int` is an `i64`) or anything else. -/
inductive Lit where
  | number (q : Rat)
  | int (i : Int)
  | other
deriving DecidableEq, Repr

/-- `n as i64`: cut off the fraction, stay within `i64`. -/
def asI64 (q : Rat) : Int :=
  max (-9223372036854775808) (min 9223372036854775807 (if 0 ≤ q then ⌊q⌋ else ⌈q⌉))

/-- reference_fns.rs 232-238, 247-253, 584-590: only numbers are taken. -/
def Lit.whole : Lit → Out Int
  | .number q => .ok (asI64 q)
  | .int i => .ok i
  | .other => .err .value

/-- `x as u32` of an `i64` that is not negative: the low 32 bits. -/
def asU32 (i : Int) : Nat := (i % 4294967296).toNat

/-- `u32` addition. `checked` says whether the build checks for overflow (debug builds do, release builds wrap). -/
def add32 (checked : Bool) (a b : Nat) : Out Nat :=
  if a + b < 4294967296 then .ok (a + b) else if checked then .panic else .ok ((a + b) % 4294967296)

/-- `u32` subtraction of one. -/
def pred32 (checked : Bool) (a : Nat) : Out Nat :=
  if 0 < a then .ok (a - 1) else if checked then .panic else .ok 4294967295

/-- `i64` addition. -/
def add64 (checked : Bool) (a b : Int) : Out Int :=
  if -9223372036854775808 ≤ a + b ∧ a + b ≤ 9223372036854775807 then .ok (a + b)
  else if checked then .panic else .ok ((a + b + 9223372036854775808) % 18446744073709551616 - 9223372036854775808)

/-- reference_fns.rs 94-130 `resolve_reference_bounds`. `view` is the rectangle of the range view of a reference
with a missing bound, `none` if the view is empty. -/
def resolveBounds (view : Ref → Option Bounds) : Ref → Out Bounds
  | .range sheet (some sr) (some sc) (some er) (some ec) => .ok ⟨sheet, sr, sc, er, ec⟩
  | .range sheet sr sc er ec =>
    match view (.range sheet sr sc er ec) with
    | none => .err .ref
    | some b => .ok { b with sheet := sheet }
  | .cell sheet row col => .ok ⟨sheet, row, col, row, col⟩

/-- reference_fns.rs 262-274: which row and which column are meant. -/
def which (oneRow : Bool) (position : Int) : Option Int → Int × Int
  | some c => (position, c)
  | none => if oneRow then (1, position) else (position, 1)

/-- `sr + (row as u32) - 1` (reference_fns.rs 299, 314, 324-325). -/
def nth (checked : Bool) (start : Nat) (i : Int) : Out Nat :=
  (add32 checked start (asU32 i)).bind (pred32 checked)

/-- The closure `range_ref` (reference_fns.rs 282-292). -/
def rangeRef (sheet : Option String) (sr sc er ec : Nat) : Ref :=
  .range sheet (some sr) (some sc) (some er) (some ec)

/-- reference_fns.rs 299-308: a whole row. -/
def indexRow (checked : Bool) (b : Bounds) (row : Int) : Out Ref :=
  (nth checked b.sr row).bind fun r =>
    if r > b.er then .err .ref
    else .ok (if b.sc = b.ec then .cell b.sheet r b.sc else rangeRef b.sheet r b.sc r b.ec)

/-- reference_fns.rs 311-322: a whole column. -/
def indexCol (checked : Bool) (b : Bounds) (col : Int) : Out Ref :=
  (nth checked b.sc col).bind fun c =>
    if c > b.ec then .err .ref
    else .ok (if b.sr = b.er then .cell b.sheet b.sr c else rangeRef b.sheet b.sr c b.er c)

/-- reference_fns.rs 324-330: one cell. -/
def indexCell (checked : Bool) (b : Bounds) (row col : Int) : Out Ref :=
  (nth checked b.sr row).bind fun r =>
    (nth checked b.sc col).bind fun c =>
      if r > b.er ∨ c > b.ec then .err .ref else .ok (.cell b.sheet r c)

/-- reference_fns.rs 276-330, after the bounds are known. -/
def indexAt (checked : Bool) (b : Bounds) (rc : Int × Int) : Out Ref :=
  if rc.1 < 0 ∨ rc.2 < 0 then .err .ref
  else if rc.2 = 0 then
    if rc.1 = 0 then .ok (rangeRef b.sheet b.sr b.sc b.er b.ec) else indexRow checked b rc.1
  else if rc.1 = 0 then indexCol checked b rc.2
  else indexCell checked b rc.1 rc.2

/-- The optional column: reference_fns.rs 242-258. -/
def wholeOpt : Option Lit → Out (Option Int)
  | none => .ok none
  | some l => l.whole.bind fun i => .ok (some i)

/-- reference_fns.rs 212-331 `IndexFn::eval_reference` for a first argument that is a reference; an omitted
argument is the number 0. -/
def indexRef (checked : Bool) (view : Ref → Option Bounds) (base : Ref) (position : Lit) (col : Option Lit) :
    Out Ref :=
  position.whole.bind fun p =>
    (wholeOpt col).bind fun c =>
      (resolveBounds view base).bind fun b => indexAt checked b (which (b.sr == b.er) p c)

/-- What a call returns: one value or a table of values (`CalcValue::Scalar`, `CalcValue::Range`). -/
inductive Val (α : Type) where
  | scalar (a : α)
  | range (rows : List (List α))
deriving DecidableEq, Repr

/-- The table of values that is seen. -/
def Val.table {α : Type} : Val α → List (List α)
  | .scalar a => [[a]]
  | .range rows => rows

/-- `table.iter().map(|r| r.len()).max().unwrap_or(0)` (reference_fns.rs 399). -/
def width {α : Type} (t : List (List α)) : Nat := (t.map List.length).foldr max 0

/-- reference_fns.rs 430-486: the array path, `row` and `col` not negative. `empty` is the empty cell, `bad` the
error `#REF!` as a cell value. -/
def arrayAt {α : Type} (empty bad : α) (t : List (List α)) (row col : Nat) : Out (Val α) :=
  if col = 0 then
    if row = 0 then .ok (.range t)
    else if row > t.length then .err .ref
    else
      if width t = 1 then .ok (.scalar ((t.getD (row - 1) []).headD empty))
      else .ok (.range [t.getD (row - 1) []])
  else if row = 0 then
    if col > width t then .err .ref
    else if t.length = 1 then .ok (.scalar ((t.getD 0 []).getD (col - 1) empty))
    else .ok (.range (t.map fun r => [r.getD (col - 1) empty]))
  else if row > t.length ∨ col > width t then .err .ref
  else .ok (.scalar ((t.getD (row - 1) []).getD (col - 1) bad))

/-- reference_fns.rs 361-487: the array path of `IndexFn::eval`. -/
def indexArray {α : Type} (empty bad : α) (t : List (List α)) (position : Lit) (col : Option Lit) : Out (Val α) :=
  position.whole.bind fun p =>
    (wholeOpt col).bind fun c =>
      let rc := which (t.length == 1) p c
      if rc.1 < 0 ∨ rc.2 < 0 then .err .ref else arrayAt empty bad t rc.1.toNat rc.2.toNat

/-- reference_fns.rs 646-671: the new rectangle. Every sum is an `i64` sum, every result is cut to 32 bits. -/
def offsetAt (checked : Bool) (b : Bounds) (dr dc height width : Int) : Out Ref :=
  (add64 checked b.sr dr).bind fun nsr =>
    (add64 checked b.sc dc).bind fun nsc =>
      if nsr ≤ 0 ∨ nsc ≤ 0 ∨ height ≤ 0 ∨ width ≤ 0 then .err .ref
      else
        (add64 checked nsr height).bind fun pr =>
          (add64 checked nsc width).bind fun pc =>
            (add64 checked pr (-1)).bind fun ner =>
              (add64 checked pc (-1)).bind fun nec =>
                if height = 1 ∧ width = 1 then .ok (.cell b.sheet (asU32 nsr) (asU32 nsc))
                else .ok (rangeRef b.sheet (asU32 nsr) (asU32 nsc) (asU32 ner) (asU32 nec))

/-- The optional height and width (reference_fns.rs 612-638). -/
def wholeOr (d : Int) : Option Lit → Out Int
  | none => .ok d
  | some l => l.whole

/-- reference_fns.rs 567-647 `OffsetFn::eval_reference`. (The code adds `rows` and `cols` before it looks at the
height and the width; here the sums come last, which matters only if both fail.) -/
def offsetRef (checked : Bool) (view : Ref → Option Bounds) (base : Ref) (rows cols : Lit)
    (height width : Option Lit) : Out Ref :=
  rows.whole.bind fun dr =>
    cols.whole.bind fun dc =>
      (resolveBounds view base).bind fun b =>
        (wholeOr ((b.er : Int) - b.sr + 1) height).bind fun h =>
          (wholeOr ((b.ec : Int) - b.sc + 1) width).bind fun w => offsetAt checked b dr dc h w

/-- coord.rs 252-263 `RelativeCoord::new` on zero-based numbers: it asserts that they fit. -/
def coordNew (row0 col0 : Nat) : Out (Nat × Nat) :=
  if row0 ≤ 1048575 ∧ col0 ≤ 16383 then .ok (row0, col0) else .panic

/-- The rectangle of cells (one-based, inclusive) that a reference with all its bounds stands for when it is read:
eval.rs 23381-23450 `resolve_shared_ref`, address.rs 445-465 `from_parts`, reference.rs 305-325 `try_from_shared`
and eval.rs 24050-24180 `resolve_range_view`. Existence of the sheet is assumed. References with a missing bound
are not read here. -/
def readRef : Ref → Out Bounds
  | .cell sheet row col =>
    if row = 0 ∨ col = 0 then .err .ref
    else (coordNew (row - 1) (col - 1)).bind fun rc => .ok ⟨sheet, rc.1 + 1, rc.2 + 1, rc.1 + 1, rc.2 + 1⟩
  | .range sheet (some sr) (some sc) (some er) (some ec) =>
    if sr = 0 ∨ sc = 0 ∨ er = 0 ∨ ec = 0 then .err .ref
    else if sr > er ∨ sc > ec then .err .ref
    else
      (coordNew (sr - 1) (sc - 1)).bind fun a =>
        (coordNew (er - 1) (ec - 1)).bind fun b => .ok ⟨sheet, a.1 + 1, a.2 + 1, b.1 + 1, b.2 + 1⟩
  | .range .. => .err .ref

/-- The values of a rectangle, row by row, as a range view delivers them. -/
def values {α : Type} (g : Nat → Nat → α) (b : Bounds) : List (List α) :=
  (List.range' b.sr (b.er + 1 - b.sr)).map fun r => (List.range' b.sc (b.ec + 1 - b.sc)).map fun c => g r c

/-- reference_fns.rs 339-357 (and 680-700): the reference is read, a table of one cell becomes that value. -/
def evalRef {α : Type} (empty : α) (g : Nat → Nat → α) (r : Out Ref) : Out (Val α) :=
  r.bind fun r =>
    (readRef r).bind fun b =>
      let t := values g b
      if b.sr = b.er ∧ b.sc = b.ec then .ok (.scalar ((t.getD 0 []).getD 0 empty)) else .ok (.range t)

/-- eval.rs 24097-24120 with used_extent.rs 142-200 for a whole column `c`: the rows from 1 to the last used one,
or to the configured maximum if no row is used. -/
def columnView (c : Nat) (lastUsed : Option Nat) (maxRows : Nat) : Bounds :=
  ⟨none, 1, c, lastUsed.getD maxRows, c⟩

/-- reference_info.rs 256-290 `ROWS` of a reference. -/
def rowsOf : Ref → Int
  | .cell .. => 1
  | .range _ (some sr) _ (some er) _ => if sr ≤ er then (er - sr + 1 : Nat) else 1
  | .range _ none _ none _ => 1048576
  | .range _ (some sr) _ none _ => 1048576 - (sr : Int) + 1
  | .range _ none _ (some er) _ => er

/-- reference_info.rs 546-580 `COLUMNS` of a reference. -/
def columnsOf : Ref → Int
  | .cell .. => 1
  | .range _ _ (some sc) _ (some ec) => if sc ≤ ec then (ec - sc + 1 : Nat) else 1
  | .range _ _ none _ none => 16384
  | .range _ _ (some sc) _ none => 16384 - (sc : Int) + 1
  | .range _ _ none _ (some ec) => ec

/-- reference_info.rs 128-155 `ROW` of a reference whose first row is written; of a whole column 1. -/
def rowOf : Ref → Option Int
  | .cell _ r _ => some r
  | .range _ (some sr) _ _ _ => some sr
  | .range _ none _ none _ => some 1
  | .range _ none _ (some _) _ => none

/-- reference_info.rs 418-445 `COLUMN` of a reference. -/
def columnOf : Ref → Option Int
  | .cell _ _ c => some c
  | .range _ _ (some sc) _ _ => some sc
  | .range _ _ none _ none => some 1
  | .range _ _ none _ (some _) => none

end Verif.RefFn

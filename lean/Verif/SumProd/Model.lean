import Mathlib.Data.Rat.Defs
import Mathlib.Algebra.Order.Field.Rat
import Verif.Ops.Ranges

/-!
# SUMPRODUCT

Model of `/repo/crates/formualizer-eval/src`:
* `builtins/math/aggregate.rs` 474-556 (`SumProductFn::eval`),
* `broadcast.rs` (`broadcast_shape`, `broadcast_dim`, `project_index`),
* `coercion.rs` 10-37 (`to_number_lenient`),
* `engine/range_view.rs` 512-525 (`for_each_row`).

Numbers are rationals. Reading a number from a text is a parameter. Dates and
durations are left out: the sheet stores them as numbers.
-/

namespace Verif.SumProd

/-- `LiteralValue` of a cell. Errors are numbered. -/
inductive C where
  | num (q : ℚ)
  | text (t : List Char)
  | bool (b : Bool)
  | empty
  | err (e : Nat)
deriving DecidableEq

/-- `LiteralValue::Array`. -/
abbrev Arr := List (List C)

/-- The outcome: a number, `#VALUE!` for shapes that do not fit, or an error found in
a cell. -/
inductive Out where
  | num (q : ℚ)
  | shapes
  | cell (e : Nat)
deriving DecidableEq

/-- `coerce_num`, or 0 if that fails: aggregate.rs 537-545, coercion.rs 10-37. -/
def amount (parse : List Char → Option ℚ) : C → ℚ
  | .num q => q
  | .text t => (parse t).getD 0
  | .bool b => if b then 1 else 0
  | .empty => 0
  | .err _ => 0

/-- The shape of an argument: aggregate.rs 509. -/
def shape (a : Arr) : Nat × Nat := (a.length, (a.head?.map List.length).getD 0)

/-- `broadcast_dim`: broadcast.rs 18-28. -/
def dim (a b : Nat) : Option Nat :=
  if a = b ∨ a = 1 then some (max b a) else if b = 1 then some (max a b) else none

/-- One axis of `broadcast_shape`: broadcast.rs 5-16. -/
def dims : Nat → List Nat → Option Nat
  | a, [] => some a
  | a, b :: l =>
    match dim a b with
    | some d => dims d l
    | none => none

/-- `broadcast_shape`: broadcast.rs 5-16. -/
def target (shapes : List (Nat × Nat)) : Option (Nat × Nat) :=
  match dims 1 (shapes.map Prod.fst), dims 1 (shapes.map Prod.snd) with
  | some m, some n => some (m, n)
  | _, _ => none

/-- `project_index` and reading the cell, empty outside: broadcast.rs 30-36,
aggregate.rs 527-532. -/
def pick (a : Arr) (i j : Nat) : C :=
  (a[if (shape a).1 = 1 then 0 else i]?.bind
    (fun row => row[if (shape a).2 = 1 then 0 else j]?)).getD .empty

/-- The product at one place: aggregate.rs 524-547. -/
def product (parse : List Char → Option ℚ) (i j : Nat) : List Arr → ℚ → Except Nat ℚ
  | [], acc => .ok acc
  | a :: l, acc =>
    match pick a i j with
    | .err e => .error e
    | v => product parse i j l (acc * amount parse v)

/-- The places row by row: aggregate.rs 522-523, 548. -/
def total (parse : List Char → Option ℚ) (args : List Arr) : List (Nat × Nat) → ℚ → Except Nat ℚ
  | [], acc => .ok acc
  | p :: l, acc =>
    match product parse p.1 p.2 args 1 with
    | .ok q => total parse args l (acc + q)
    | .error e => .error e

/-- All places of a shape, row by row. -/
def places (m n : Nat) : List (Nat × Nat) :=
  (List.range m).flatMap (fun i => (List.range n).map (fun j => (i, j)))

/-- SUMPRODUCT: aggregate.rs 474-556. -/
def sumProduct (parse : List Char → Option ℚ) (args : List Arr) : Out :=
  match args with
  | [] => .num 0
  | _ :: _ =>
    match target (args.map shape) with
    | none => .shapes
    | some (m, n) =>
      match total parse args (places m n) 0 with
      | .ok q => .num q
      | .error e => .cell e

/-- The array of a view: `for_each_row`, range_view.rs 512-525. -/
def readView (get : Nat → Nat → C) : Option Ops.Ranges.Extent → Arr
  | none => []
  | some e =>
    (List.range (e.er + 1 - e.sr)).map (fun i =>
      (List.range (e.ec + 1 - e.sc)).map (fun j => get (e.sr + i) (e.sc + j)))

/-! ### Specification -/

/-- An array of `m` rows of `n` cells each. -/
def Rect (a : Arr) (m n : Nat) : Prop := a.length = m ∧ ∀ row ∈ a, row.length = n

/-- An array that fits the size `m` by `n`: one row or `m` rows of one cell or `n`. -/
def Fits (a : Arr) (m n : Nat) : Prop :=
  ∃ x y, Rect a x y ∧ 0 < x ∧ 0 < y ∧ (x = 1 ∨ x = m) ∧ (y = 1 ∨ y = n)

/-- What an array stands for at a place: a single row or column stands for all. -/
def Arr.at (a : Arr) (i j : Nat) : Option C :=
  ((a[i]?).or (if a.length = 1 then a[0]? else none)).bind
    (fun row => (row[j]?).or (if row.length = 1 then row[0]? else none))

end Verif.SumProd

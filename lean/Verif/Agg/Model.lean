import Mathlib.Algebra.Order.Field.Rat
import Mathlib.Algebra.BigOperators.Group.List.Basic

/-!
# Aggregates

Model of `/repo/crates/formualizer-eval/src/builtins/math/aggregate.rs` 67-390 (`SUM`, `COUNT`, `AVERAGE`), 1325-1650, 1664-1834 (`SUBTOTAL`, `AGGREGATE`), `math/reduction.rs` 70-300 (`MIN`, `MAX`) and
`math/criteria_aggregates.rs` 1381-1415, 1488-1535 (`COUNTA`, `COUNTBLANK`).  Numbers are rational: rounding, and the guard against results that are not finite, are left out.  The square root is a parameter.
-/

namespace Verif.Agg

/-- Errors by number; the ones that the functions make themselves. -/
abbrev Err := Nat
def errDiv : Err := 1
def errValue : Err := 2
def errNImpl : Err := 3

/-- The values of cells as they are read from a range (`RangeView::get_cell`), where dates are numbers. -/
inductive Cell
  | empty
  | num (q : Rat)
  | bool (b : Bool)
  | text (s : List Char)
  | err (e : Err)
  deriving DecidableEq, Repr

/-- The parts of the machine that are not modelled: reading a number from a text (`Locale::parse_number_invariant`) and square roots. -/
structure Env where
  parse : List Char → Option Rat
  sqrt : Rat → Rat

/-- `coerce_num`: builtins/utils.rs 26-28, coercion.rs 10-36. -/
def Env.coerce (v : Env) : Cell → Option Rat
  | .empty => some 0
  | .num q => some q
  | .bool b => some (if b = true then 1 else 0)
  | .text s => v.parse s
  | .err _ => none

/-- A range: the rows that the sheet stores, in its chunks (range_view.rs 67-190), each with `cols` cells, and how many rows of the range come after them. -/
structure View where
  cols : Nat
  chunks : List (List (List Cell))
  below : Nat := 0
  deriving DecidableEq, Repr

/-- An argument: `resolve_aggregate_argument` (math/mod.rs 19-32), with the mask of the rows of a range. -/
inductive Arg
  | range (v : View) (mask : List Bool)
  | scalar (c : Cell)
  | refErr (e : Err)
  deriving DecidableEq, Repr

inductive Out
  | num (q : Rat)
  | err (e : Err)
  deriving DecidableEq, Repr

/-! ### Functions that read the typed columns -/

/-- One column of a chunk. -/
def column (chunk : List (List Cell)) (c : Nat) : List Cell := chunk.map fun row => row.getD c .empty

/-- range_view.rs 638-692, 853-905: for each chunk its columns. -/
def View.slices (v : View) : List (List Cell) := v.chunks.flatMap fun ch => (List.range v.cols).map (column ch)

/-- The numbers among cells, as in the lane of numbers. -/
def nums (cs : List Cell) : List Rat := cs.filterMap fun | .num q => some q | _ => none

/-- The errors among cells, as in the lane of errors. -/
def errs (cs : List Cell) : List Err := cs.filterMap fun | .err e => some e | _ => none

/-- aggregate.rs 97-111: the first error of the columns. -/
def View.firstErr (v : View) : Option Err := (errs v.slices.flatten).head?

/-- `SUM` from a total (aggregate.rs 88-137). -/
def sumFrom (env : Env) : List Arg → Rat → Out
  | [], t => .num t
  | .range v _ :: as, t =>
    match v.firstErr with
    | some e => .err e
    | none => sumFrom env as (v.slices.foldl (fun t col => t + (nums col).sum) t)
  | .refErr e :: _, _ => .err e
  | .scalar (.err e) :: _, _ => .err e
  | .scalar c :: as, t =>
    match env.coerce c with
    | some q => sumFrom env as (t + q)
    | none => .err errValue

def sum (env : Env) (as : List Arg) : Out := sumFrom env as 0

/-- `COUNT` (aggregate.rs 214-246). -/
def countFrom (env : Env) : List Arg → Nat → Out
  | [], n => .num n
  | .range v _ :: as, n => countFrom env as (v.slices.foldl (fun n col => n + (nums col).length) n)
  | .refErr e :: _, _ => .err e
  | .scalar (.err e) :: _, _ => .err e
  | .scalar .empty :: as, n => countFrom env as n
  | .scalar c :: as, n => countFrom env as (if (env.coerce c).isSome = true then n + 1 else n)

def count (env : Env) (as : List Arg) : Out := countFrom env as 0

/-- `AVERAGE` (aggregate.rs 330-389). -/
def averageFrom (env : Env) : List Arg → Rat → Nat → Out
  | [], t, n => if n = 0 then .err errDiv else .num (t / n)
  | .range v _ :: as, t, n =>
    match v.firstErr with
    | some e => .err e
    | none => averageFrom env as (v.slices.foldl (fun t col => t + (nums col).sum) t) (v.slices.foldl (fun n col => n + (nums col).length) n)
  | .refErr e :: _, _, _ => .err e
  | .scalar (.err e) :: _, _, _ => .err e
  | .scalar c :: as, t, n =>
    match env.coerce c with
    | some q => averageFrom env as (t + q) (n + 1)
    | none => averageFrom env as t n

def average (env : Env) (as : List Arg) : Out := averageFrom env as 0 0

/-- The largest of some numbers: `arrow::compute::max`, `reduce(f64::max)`. -/
def maxOf : List Rat → Option Rat
  | [] => none
  | q :: qs => some (qs.foldl max q)

def minOf : List Rat → Option Rat
  | [] => none
  | q :: qs => some (qs.foldl min q)

/-- `mv.is_none_or(|current| n > current)`. -/
def better (gt : Rat → Rat → Bool) (mv : Option Rat) (n : Option Rat) : Option Rat :=
  match n, mv with
  | none, mv => mv
  | some n, none => some n
  | some n, some m => if gt n m = true then some n else some m

/-- `MAX` and `MIN` (reduction.rs 105-156 and 236-287): `best` of a column and the comparison. -/
def extremeFrom (env : Env) (best : List Rat → Option Rat) (gt : Rat → Rat → Bool) : List Arg → Option Rat → Out
  | [], mv => .num (mv.getD 0)
  | .range v _ :: as, mv =>
    match v.firstErr with
    | some e => .err e
    | none => extremeFrom env best gt as (v.slices.foldl (fun mv col => better gt mv (best (nums col))) mv)
  | .refErr e :: _, _ => .err e
  | .scalar (.err e) :: _, _ => .err e
  | .scalar c :: as, mv => extremeFrom env best gt as (better gt mv (env.coerce c))

def maxFn (env : Env) (as : List Arg) : Out := extremeFrom env maxOf (fun a b => decide (b < a)) as none
def minFn (env : Env) (as : List Arg) : Out := extremeFrom env minOf (fun a b => decide (a < b)) as none

/-- `COUNTA` (criteria_aggregates.rs 1386-1414). -/
def countAFrom : List Arg → Nat → Out
  | [], n => .num n
  | .range v _ :: as, n => countAFrom as (v.slices.foldl (fun n col => n + (col.filter fun c => decide (c ≠ .empty)).length) n)
  | .refErr e :: _, _ => .err e
  | .scalar c :: as, n => countAFrom as (if c = .empty then n else n + 1)

def countA (as : List Arg) : Out := countAFrom as 0

/-- `COUNTBLANK` (criteria_aggregates.rs 1493-1534). -/
def blank (c : Cell) : Bool := decide (c = .empty) || decide (c = .text [])

def countBlankFrom : List Arg → Nat → Out
  | [], n => .num n
  | .range v _ :: as, n => countBlankFrom as (v.slices.foldl (fun n col => n + (col.filter blank).length) n)
  | .refErr e :: _, _ => .err e
  | .scalar c :: as, n => countBlankFrom as (if blank c = true then n + 1 else n)

def countBlank (as : List Arg) : Out := countBlankFrom as 0

/-! ### SUBTOTAL and AGGREGATE -/

/-- aggregate.rs 1337-1350. -/
inductive AggOp | average | count | countA | max | min | product | stdevS | stdevP | sum | varS | varP
  deriving DecidableEq, Repr

/-- aggregate.rs 1352-1367. -/
def opOf : Nat → Option AggOp
  | 1 => some .average
  | 2 => some .count
  | 3 => some .countA
  | 4 => some .max
  | 5 => some .min
  | 6 => some .product
  | 7 => some .stdevS
  | 8 => some .stdevP
  | 9 => some .sum
  | 10 => some .varS
  | 11 => some .varP
  | _ => none

/-- aggregate.rs 1415-1419, `AggregateCollector`. -/
structure Coll where
  values : List Rat := []
  counta : Nat := 0
  deriving DecidableEq, Repr

/-- aggregate.rs 1481-1509. -/
def consumeRange (op : AggOp) (ignore : Bool) (s : Coll) : Cell → Except Err Coll
  | .err e => if op = .countA then (if ignore = true then .ok s else .ok { s with counta := s.counta + 1 }) else if ignore = true then .ok s else .error e
  | .empty => .ok s
  | .num q => .ok { values := s.values ++ [q], counta := s.counta + 1 }
  | _ => .ok { s with counta := s.counta + 1 }

def consumeAll (op : AggOp) (ignore : Bool) : List Cell → Coll → Except Err Coll
  | [], s => .ok s
  | c :: cs, s =>
    match consumeRange op ignore s c with
    | .ok s => consumeAll op ignore cs s
    | .error e => .error e

/-- aggregate.rs 1511-1556; values that are arrays come as ranges here. -/
def consumeScalar (env : Env) (op : AggOp) (ignore : Bool) (s : Coll) : Cell → Except Err Coll
  | .err e => if op = .countA then (if ignore = true then .ok s else .ok { s with counta := s.counta + 1 }) else if ignore = true then .ok s else .error e
  | c =>
    match op with
    | .countA => if c = .empty then .ok s else .ok { s with counta := s.counta + 1 }
    | .count => if c ≠ .empty ∧ (env.coerce c).isSome = true then .ok { s with values := s.values ++ [0] } else .ok s
    | _ =>
      match env.coerce c with
      | some q => .ok { s with values := s.values ++ [q] }
      | none => .ok s

/-- aggregate.rs 1392-1402, 1462-1467: the rows that are not hidden, from the row with number `i`. -/
def visibleFrom (mask : List Bool) : Nat → List (List Cell) → List (List Cell)
  | _, [] => []
  | i, row :: rows => if (mask[i]?).getD true = true then row :: visibleFrom mask (i + 1) rows else visibleFrom mask (i + 1) rows

/-- aggregate.rs 1442-1479: all cells row by row. -/
def rangeCells (skipHidden : Bool) (v : View) (mask : List Bool) : List Cell :=
  let rows := v.chunks.flatten
  (if skipHidden = true then visibleFrom mask 0 rows else rows).flatten

/-- aggregate.rs 1422-1440, `collect_args`. -/
def collect (env : Env) (op : AggOp) (skipHidden ignore : Bool) : List Arg → Coll → Except Err Coll
  | [], s => .ok s
  | a :: as, s =>
    let r := match a with
      | .range v mask => consumeAll op ignore (rangeCells skipHidden v mask) s
      | .refErr e => consumeScalar env op ignore s (.err e)
      | .scalar c => consumeScalar env op ignore s c
    match r with
    | .ok s => collect env op skipHidden ignore as s
    | .error e => .error e

/-- aggregate.rs 1558-1582. -/
def variance (values : List Rat) (sample : Bool) : Option Rat :=
  let n := values.length
  if (sample = true ∧ n < 2) ∨ (sample = false ∧ n = 0) then none
  else
    let mean := values.sum / n
    let ss := (values.map fun q => (q - mean) * (q - mean)).sum
    some (if sample = true then ss / ((n : Rat) - 1) else ss / n)

/-- aggregate.rs 1584-1648. -/
def finalize (env : Env) (op : AggOp) (s : Coll) : Out :=
  match op with
  | .average => if s.values = [] then .err errDiv else .num (s.values.sum / s.values.length)
  | .count => .num s.values.length
  | .countA => .num s.counta
  | .max => .num ((maxOf s.values).getD 0)
  | .min => .num ((minOf s.values).getD 0)
  | .product => if s.values = [] then .num 0 else .num s.values.prod
  | .stdevS => match variance s.values true with | some q => .num (env.sqrt q) | none => .err errDiv
  | .stdevP => match variance s.values false with | some q => .num (env.sqrt q) | none => .err errDiv
  | .sum => .num s.values.sum
  | .varS => match variance s.values true with | some q => .num q | none => .err errDiv
  | .varP => match variance s.values false with | some q => .num q | none => .err errDiv

/-- Both steps. -/
def aggregateOp (env : Env) (op : AggOp) (skipHidden ignore : Bool) (as : List Arg) : Out :=
  match collect env op skipHidden ignore as {} with
  | .ok s => finalize env op s
  | .error e => .err e

/-- `SUBTOTAL` (aggregate.rs 1684-1729), for a number of the function that is an integer. -/
def subtotal (env : Env) (n : Nat) (as : List Arg) : Out :=
  if 1 ≤ n ∧ n ≤ 11 then
    match opOf n with
    | some op => aggregateOp env op false false as
    | none => .err errValue
  else if 101 ≤ n ∧ n ≤ 111 then
    match opOf (n - 100) with
    | some op => aggregateOp env op true false as
    | none => .err errValue
  else .err errValue

/-- `AGGREGATE` (aggregate.rs 1767-1834). -/
def aggregate (env : Env) (n options : Nat) (as : List Arg) : Out :=
  if 12 ≤ n ∧ n ≤ 19 then .err errNImpl
  else
    match opOf n with
    | none => .err errValue
    | some op =>
      match options with
      | 0 => aggregateOp env op false false as
      | 1 => aggregateOp env op true false as
      | 2 => aggregateOp env op false true as
      | 3 => aggregateOp env op true true as
      | 4 | 5 | 6 | 7 => .err errNImpl
      | _ => .err errValue

end Verif.Agg

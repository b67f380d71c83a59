import Mathlib.Analysis.Real.Sqrt

/-!
# Statistics of paired data

Model of `/repo/crates/formualizer-eval/src/builtins/stats/mod.rs` 47-105 (`collect_numeric_stats`), 2514-2528
(`collect_paired_arrays`), CORREL 2583-2622, SLOPE 2677-2711, INTERCEPT 2768-2803, COVARIANCE.P 5279-5306,
COVARIANCE.S 5354-5383, PEARSON 5435-5470, RSQ 5521-5555, STEYX 5606-5655, FORECAST.LINEAR 6041-6101, LINEST 6160-6340,
TREND 6730-6855, and of `/repo/crates/formualizer-eval/src/builtins/math/numeric.rs` 3053-3078 (`collect_nums_from_arg`),
SUMX2MY2, SUMX2PY2, SUMXMY2 3126-3282.

Simplified: finite floats are rational numbers with exact arithmetic, roots are real; dates are numbers; an argument
is a range (array literals, whose texts and booleans are converted first, give a list of numbers too).
-/
namespace Verif.Pairs

/-- The errors that occur here. -/
inductive Err where
  | na | div | ref | value | other (code : Nat)
deriving DecidableEq, Repr

/-- The cells of a range: a number, an error, a boolean, a blank, or anything else (text). -/
inductive Cell where
  | num (q : Rat)
  | bool (b : Bool)
  | blank
  | other
  | err (e : Err)
deriving DecidableEq, Repr

/-- `collect_numeric_stats` for a range (stats/mod.rs 69-91): the numbers, in order; the first error fails. -/
def numbers : List Cell → Except Err (List Rat)
  | [] => .ok []
  | .err e :: _ => .error e
  | .num q :: cs => match numbers cs with
    | .ok l => .ok (q :: l)
    | .error e => .error e
  | _ :: cs => numbers cs

/-- `collect_paired_arrays` (stats/mod.rs 2514-2528). -/
def paired (y x : List Cell) : Except Err (List Rat × List Rat) :=
  match numbers y with
  | .error e => .error e
  | .ok ys => match numbers x with
    | .error e => .error e
    | .ok xs => if ys.length ≠ xs.length then .error .na else if ys = [] then .error .div else .ok (ys, xs)

/-- The mean (stats/mod.rs 2593-2595). -/
def mean (l : List Rat) : Rat := l.sum / l.length

/-- `sum_xy`: the loop over the deviations from the means (stats/mod.rs 2597-2607). -/
def sumXY (y x : List Rat) : Rat := ((y.zip x).map fun p => (p.2 - mean x) * (p.1 - mean y)).sum

/-- `sum_x2` (stats/mod.rs 2605), and `sum_y2` with the other list. -/
def sum2 (x : List Rat) : Rat := (x.map fun a => (a - mean x) * (a - mean x)).sum

/-- A function of pairs: a failure of the collection is its error. -/
def onPairs {α : Type} (f : List Rat → List Rat → Except Err α) (y x : List Cell) : Except Err α :=
  match paired y x with
  | .error e => .error e
  | .ok (ys, xs) => f ys xs

/-- SLOPE (stats/mod.rs 2687-2709). -/
def slope (y x : List Rat) : Except Err Rat :=
  if sum2 x = 0 then .error .div else .ok (sumXY y x / sum2 x)

/-- INTERCEPT (stats/mod.rs 2778-2801). -/
def intercept (y x : List Rat) : Except Err Rat :=
  if sum2 x = 0 then .error .div else .ok (mean y - sumXY y x / sum2 x * mean x)

/-- CORREL and PEARSON (stats/mod.rs 2593-2620, 5445-5468). -/
noncomputable def correl (y x : List Rat) : Except Err ℝ :=
  if √(((sum2 x * sum2 y : Rat) : ℝ)) = 0 then .error .div
  else .ok (((sumXY y x : Rat) : ℝ) / √(((sum2 x * sum2 y : Rat) : ℝ)))

/-- RSQ (stats/mod.rs 5531-5553). -/
def rsq (y x : List Rat) : Except Err Rat :=
  if sum2 x * sum2 y = 0 then .error .div else .ok (sumXY y x * sumXY y x / (sum2 x * sum2 y))

/-- COVARIANCE.P (stats/mod.rs 5289-5304). -/
def covP (y x : List Rat) : Except Err Rat := .ok (sumXY y x / x.length)

/-- COVARIANCE.S (stats/mod.rs 5364-5381). -/
def covS (y x : List Rat) : Except Err Rat :=
  if x.length < 2 then .error .div else .ok (sumXY y x / ((x.length - 1 : Nat) : Rat))

/-- STEYX (stats/mod.rs 5616-5653). -/
noncomputable def steyx (y x : List Rat) : Except Err ℝ :=
  if x.length < 3 then .error .div
  else if sum2 x = 0 then .error .div
  else if sum2 y - sumXY y x * sumXY y x / sum2 x < 0 then .ok 0
  else .ok √((((sum2 y - sumXY y x * sumXY y x / sum2 x) / (x.length - 2 : Rat) : Rat) : ℝ))

/-- FORECAST.LINEAR (stats/mod.rs 6041-6101): the first argument is given as `coerce_num` takes it, which fails with
the error of the cell. -/
def forecast (at' : Except Err Rat) (y x : List Cell) : Except Err Rat :=
  match at' with
  | .error _ => .error .value
  | .ok q => match numbers y with
    | .error e => .error e
    | .ok ys => match numbers x with
      | .error e => .error e
      | .ok xs =>
        if ys.length ≠ xs.length then .error .na
        else if ys = [] then .error .na
        else if sum2 xs = 0 then .error .div
        else .ok (mean ys - sumXY ys xs / sum2 xs * mean xs + sumXY ys xs / sum2 xs * q)

/-- The coefficients of LINEST and TREND (stats/mod.rs 6216-6259, 6805-6848). -/
def line (useConst : Bool) (y x : List Rat) : Except Err (Rat × Rat) :=
  if useConst then
    if sum2 x = 0 then .error .div
    else .ok (sumXY y x / sum2 x, mean y - sumXY y x / sum2 x * mean x)
  else
    let sxy := ((y.zip x).map fun p => p.2 * p.1).sum
    let sxx := (x.map fun a => a * a).sum
    if sxx = 0 then .error .div else .ok (sxy / sxx, 0)

/-- `ss_resid` (stats/mod.rs 6278-6288). -/
def ssResid (y x : List Rat) (m b : Rat) : Rat :=
  ((y.zip x).map fun p => (p.1 - (m * p.2 + b)) * (p.1 - (m * p.2 + b))).sum

/-- `r_squared` of LINEST (stats/mod.rs 6292-6296); `ss_tot` is `sum2 y`. -/
def linestR2 (y x : List Rat) (m b : Rat) : Rat :=
  if sum2 y = 0 then 1 else 1 - ssResid y x m b / sum2 y

/-- The degrees of freedom of LINEST (stats/mod.rs 6299-6303). -/
def linestDf (useConst : Bool) (n : Nat) : Int := max ((n : Int) - (if useConst then 2 else 1)) 1

/-- `se_y` of LINEST (stats/mod.rs 6306-6310); `df` is never below 1. -/
noncomputable def linestSe (useConst : Bool) (y x : List Rat) (m b : Rat) : ℝ :=
  √((((ssResid y x m b) / (linestDf useConst x.length : Rat) : Rat) : ℝ))

/-- The known x of LINEST and TREND: 1, 2, 3, … where they are left out (stats/mod.rs 6176-6180). -/
def defaultX (n : Nat) : List Rat := (List.range n).map fun i : Nat => (i : Rat) + 1

/-- The known x of LINEST, where given (stats/mod.rs 6176-6177). -/
def linestX (x : List Cell) : Except Err (List Rat) := numbers x

/-- `is_arg_empty` for a range: its first cell is blank (stats/mod.rs 6754-6760 and 31-40). -/
def leftOut : List Cell → Bool
  | .blank :: _ => true
  | _ => false

/-- The known x of TREND for `n` known y (stats/mod.rs 6763-6767). -/
def trendX (n : Nat) (x : List Cell) : Except Err (List Rat) :=
  if leftOut x then .ok (defaultX n) else numbers x

/-- TREND (stats/mod.rs 6730-6860) after its arguments are read: one row of predictions. -/
def trend (useConst : Bool) (y x new : List Rat) : Except Err (List (List Rat)) :=
  if y = [] then .error .na
  else if y.length ≠ x.length then .error .ref
  else if new = [] then .error .na
  else match line useConst y x with
    | .error e => .error e
    | .ok (m, b) => .ok [new.map fun q => m * q + b]

/-! ## SUMX2MY2 and its kin -/

/-- `collect_nums_from_arg` (numeric.rs 3053-3078) for a range: what is no number counts as 0. -/
def nums0 : List Cell → Except Err (List Rat)
  | [] => .ok []
  | .err e :: _ => .error e
  | c :: cs => match nums0 cs with
    | .error e => .error e
    | .ok l => .ok ((match c with
      | .num q => q
      | .bool b => if b then 1 else 0
      | _ => 0) :: l)

/-- The sum over the pairs (numeric.rs 3136-3148). -/
def sumPairs (f : Rat → Rat → Rat) (x y : List Cell) : Except Err Rat :=
  match nums0 x with
  | .error e => .error e
  | .ok xs => match nums0 y with
    | .error e => .error e
    | .ok ys => if xs.length ≠ ys.length then .error .na else .ok ((xs.zip ys).map fun p => f p.1 p.2).sum

/-- SUMX2MY2 (numeric.rs 3144). -/
def sumx2my2 := sumPairs fun x y => x * x - y * y
/-- SUMX2PY2 (numeric.rs 3214). -/
def sumx2py2 := sumPairs fun x y => x * x + y * y
/-- SUMXMY2 (numeric.rs 3284). -/
def sumxmy2 := sumPairs fun x y => (x - y) ^ 2

end Verif.Pairs

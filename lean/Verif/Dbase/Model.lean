import Mathlib.Data.Real.Sqrt

/-!
The database functions DSUM, DAVERAGE, DCOUNT, DCOUNTA, DMAX, DMIN, DPRODUCT, DGET, DVAR, DVARP, DSTDEV, DSTDEVP:
`crates/formualizer-eval/src/builtins/database.rs`.

Numbers are finite and exact (rationals, roots real). How a criterion is parsed and matched (`parse_criteria`,
`criteria_match`, the subject of C52 and C53) and how a text is read as a number are parameters, as is the folding of letters.
-/
namespace Verif.Dbase

inductive Err
  | value | div | num | other (n : Nat)
deriving DecidableEq, Repr

/-- A cell: a number or integer, a logical value, a text, blank, an error, or anything else (dates, arrays). -/
inductive Cell (T : Type)
  | num (q : Rat)
  | bool (b : Bool)
  | text (s : T)
  | blank
  | err (e : Err)
  | other
deriving DecidableEq, Repr

/-- What lies outside: the folding of letters (`to_lowercase`), texts as numbers (`coerce_num`), criteria. -/
structure Env (T C P : Type) where
  fold : T → T
  toNum : T → Option Rat
  parse : C → Except Err P
  test : P → Cell T → Bool

/-- A column of the database: the cell of the first row, and the cells below by row. -/
structure Column (T : Type) where
  head : Cell T
  cell : Nat → Cell T

/-- The database: its columns and the number of rows below the first (`db_rows - 1`). -/
structure Db (T : Type) where
  cols : List (Column T)
  n : Nat

/-- `get_cell` of a row below the first. -/
def Db.get {T : Type} (db : Db T) (r i : Nat) : Cell T := match db.cols[i]? with
  | some c => c.cell r
  | none => .blank

variable {T C P : Type} [DecidableEq T]

/-- The first header that is this text up to case (database.rs 54-62, 109-117). -/
def findHead (env : Env T C P) (name : T) : List (Cell T) → Option Nat
  | [] => none
  | .text h :: hs => if env.fold h = env.fold name then some 0 else (findHead env name hs).map (· + 1)
  | _ :: hs => (findHead env name hs).map (· + 1)

/-- The argument `field`. -/
inductive Field (T : Type)
  | text (s : T)
  | num (q : Rat)
  | other

/-- `resolve_field_index` (database.rs 49-91): numbers are cut toward zero. -/
def resolveField (env : Env T C P) (heads : List (Cell T)) : Field T → Except Err Nat
  | .text s => match findHead env s heads with
    | some i => .ok i
    | none => .error .value
  | .num q =>
    let idx := q.num.tdiv q.den
    if idx < 1 ∨ idx.toNat > heads.length then .error .value else .ok (idx.toNat - 1)
  | .other => .error .value

/-- The criteria: the first row, and the rows below, `none` for a blank cell. -/
structure Crit (T C : Type) where
  heads : List (Cell T)
  rows : List (List (Option C))

/-- The column of the database that a criteria header names (database.rs 104-126). -/
def colOf (env : Env T C P) (dbHeads : List (Cell T)) : Cell T → Option Nat
  | .text s => findHead env s dbHeads
  | _ => none

/-- The conditions of one criteria row (database.rs 131-146). -/
def rowCrit (env : Env T C P) (dbHeads : List (Cell T)) : List (Cell T × Option C) → Except Err (List (Nat × P))
  | [] => .ok []
  | (h, c) :: cs => match c with
    | none => rowCrit env dbHeads cs
    | some c => match colOf env dbHeads h with
      | none => rowCrit env dbHeads cs
      | some i => match env.parse c with
        | .error e => .error e
        | .ok p => match rowCrit env dbHeads cs with
          | .error e => .error e
          | .ok l => .ok ((i, p) :: l)

/-- `parse_criteria_range` (database.rs 94-154): a row without conditions is left out (148-150). -/
def critRows (env : Env T C P) (dbHeads heads : List (Cell T)) : List (List (Option C)) → Except Err (List (List (Nat × P)))
  | [] => .ok []
  | r :: rs => match rowCrit env dbHeads (heads.zip r) with
    | .error e => .error e
    | .ok l => match critRows env dbHeads heads rs with
      | .error e => .error e
      | .ok ls => .ok (if l = [] then ls else l :: ls)

/-- `row_matches_criteria` (database.rs 156-184). -/
def rowMatches (env : Env T C P) (db : Db T) (r : Nat) (crits : List (List (Nat × P))) : Bool :=
  if crits = [] then true
  else crits.any fun row => row.all fun c => env.test c.2 (db.get r c.1)

/-- The cells of the field in the rows that match (the loop over `1..db_rows`). -/
def selected (env : Env T C P) (db : Db T) (i : Nat) (crits : List (List (Nat × P))) : List (Cell T) :=
  ((List.range db.n).filter fun r => rowMatches env db r crits).map fun r => db.get r i

/-- The arguments, up to the cells selected (database.rs 200-257): at least one row below the headers. -/
def pick (env : Env T C P) (db : Db T) (f : Field T) (ct : Crit T C) : Except Err (List (Cell T)) :=
  if db.n < 1 ∨ db.cols.length < 1 then .error .value
  else match resolveField env (db.cols.map (·.head)) f with
    | .error e => .error e
    | .ok i => match critRows env (db.cols.map (·.head)) ct.heads ct.rows with
      | .error e => .error e
      | .ok crits => .ok (selected env db i crits)

/-- The values counted (database.rs 262-291, 411-434); `bools`: logical values are (not for DCOUNT). -/
def values (env : Env T C P) (bools : Bool) : List (Cell T) → Except Err (List Rat)
  | [] => .ok []
  | .err e :: _ => .error e
  | c :: cs => match values env bools cs with
    | .error e => .error e
    | .ok l => .ok (match c with
      | .num q => q :: l
      | .bool b => if bools then (if b then 1 else 0) :: l else l
      | .text s => match env.toNum s with
        | some q => q :: l
        | none => l
      | _ => l)

def largest : List Rat → Rat
  | [] => 0
  | [q] => q
  | q :: l => max q (largest l)

def smallest : List Rat → Rat
  | [] => 0
  | [q] => q
  | q :: l => min q (smallest l)

/-- `DAggregate` (database.rs 36-43). -/
inductive Agg
  | sum | average | count | max | min | product
deriving DecidableEq

/-- The result (database.rs 296-337). -/
def aggregate (a : Agg) (l : List Rat) : Except Err Rat := match a with
  | .sum => .ok l.sum
  | .average => if l = [] then .error .div else .ok (l.sum / l.length)
  | .count => .ok l.length
  | .max => if l = [] then .ok 0 else .ok (largest l)
  | .min => if l = [] then .ok 0 else .ok (smallest l)
  | .product => if l = [] then .ok 0 else .ok l.prod

/-- `eval_d_function` (database.rs 186-340). -/
def dfun (env : Env T C P) (a : Agg) (db : Db T) (f : Field T) (ct : Crit T C) : Except Err Rat :=
  match pick env db f ct with
  | .error e => .error e
  | .ok cells => match values env (a != .count) cells with
    | .error e => .error e
    | .ok l => aggregate a l

def meanOf (l : List Rat) : Rat := l.sum / l.length

def squares (l : List Rat) : Rat := (l.map fun x => (x - meanOf l) ^ 2).sum

/-- The variances (database.rs 438-475). -/
def variance (sample : Bool) (l : List Rat) : Except Err Rat :=
  if sample then (if l.length < 2 then .error .div else .ok (squares l / (l.length - 1)))
  else (if l = [] then .error .div else .ok (squares l / l.length))

/-- DVAR, DVARP (`eval_d_stat_function`, database.rs 350-480). -/
def dvar (env : Env T C P) (sample : Bool) (db : Db T) (f : Field T) (ct : Crit T C) : Except Err Rat :=
  match pick env db f ct with
  | .error e => .error e
  | .ok cells => match values env true cells with
    | .error e => .error e
    | .ok l => variance sample l

/-- DSTDEV, DSTDEVP. -/
noncomputable def dstdev (env : Env T C P) (sample : Bool) (db : Db T) (f : Field T) (ct : Crit T C) : Except Err ℝ :=
  match dvar env sample db f ct with
  | .error e => .error e
  | .ok v => .ok (Real.sqrt (v : ℝ))

/-- DGET (database.rs 545-577). -/
def dget (env : Env T C P) (db : Db T) (f : Field T) (ct : Crit T C) : Cell T :=
  match pick env db f ct with
  | .error e => .err e
  | .ok cells => match cells.filter (· ≠ .blank) with
    | [] => .err .value
    | [c] => c
    | _ => .err .num

/-- The count of DCOUNTA (database.rs 645-667). -/
def countA : List (Cell T) → Except Err Nat
  | [] => .ok 0
  | .err e :: _ => .error e
  | .blank :: cs => countA cs
  | _ :: cs => match countA cs with
    | .error e => .error e
    | .ok n => .ok (n + 1)

/-- DCOUNTA (database.rs 579-670). -/
def dcounta (env : Env T C P) (db : Db T) (f : Field T) (ct : Crit T C) : Except Err Nat :=
  match pick env db f ct with
  | .error e => .error e
  | .ok cells => countA cells

end Verif.Dbase

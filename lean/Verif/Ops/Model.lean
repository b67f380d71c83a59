/-!
# Operators

Model of `/repo/crates/formualizer-eval/src`:
* `interpreter.rs` 985-1018, 1187-1250, 1332-1640 (unary and binary operators, the same functions that 650-740 use for stored formulas),
* `coercion.rs` 10-36, 97-125, 127-170 (`to_number_strict`, `to_arithmetic_number_with_locale`, `to_text_invariant`, `sanitize_numeric`),
* `broadcast.rs`, `locale.rs` 22-40.

Numbers are those of floating point, with rationals in place of the finite ones; rounding is part of the operations, which are parameters, as are reading a
number from a text (`parse`), a date from a text (`date`) and writing a number (`show_`).  Dates, durations and integers as values of their own are left out: a
cell gives numbers in their place.  The formats of results are left out.
-/

namespace Verif.Ops

/-- A text. -/
abbrev Str := List Char

/-- A floating point number. -/
inductive F where
  | ninf
  | fin (q : Rat)
  | inf
  | nan
deriving DecidableEq

/-- The errors that operators make; others come from cells. -/
inductive E where
  | value
  | num
  | div0
  | other (n : Nat)
deriving DecidableEq

/-- The value of one cell. -/
inductive S where
  | num (x : F)
  | text (s : Str)
  | bool (b : Bool)
  | empty
  | err (e : E)
deriving DecidableEq

/-- The value of an operand. -/
inductive Val where
  | one (s : S)
  | arr (a : List (List S))
deriving DecidableEq

/-- What is not modelled: reading and writing numbers, dates in texts, the debug text of an array. -/
structure Env where
  parse : Str → Option F
  date : Str → Option F
  show_ : F → Str
  showErr : E → Str
  debug : List (List S) → Str

/-! ### Coercion -/

/-- coercion.rs 10-22, 27-37: `to_number_strict` and `to_number_lenient_with_locale`. -/
def toNumber (env : Env) : S → Except E F
  | .num x => .ok x
  | .bool b => .ok (if b then .fin 1 else .fin 0)
  | .empty => .ok (.fin 0)
  | .err e => .error e
  | .text s =>
    match env.parse s with
    | some x => .ok x
    | none => .error .value

/-- coercion.rs 104-126, `to_arithmetic_number_with_locale`. -/
def toArith (env : Env) : S → Except E F
  | .text s =>
    match env.parse s with
    | some x => .ok x
    | none =>
      match env.date s with
      | some x => .ok x
      | none => .error .value
  | v => toNumber env v

/-- coercion.rs 146-170, `to_text_invariant`. -/
def toText (env : Env) : S → Str
  | .text s => s
  | .num x => env.show_ x
  | .bool b => if b then ['T', 'R', 'U', 'E'] else ['F', 'A', 'L', 'S', 'E']
  | .err e => env.showErr e
  | .empty => []

/-- coercion.rs 172-178, `sanitize_numeric`, and the value made from it. -/
def sanitize : F → S
  | .fin q => .num (.fin q)
  | _ => .err .num

/-! ### Arrays -/

/-- broadcast.rs 18-28, `broadcast_dim`. -/
def dim (a b : Nat) : Option Nat := if a = b ∨ a = 1 then some (max b a) else if b = 1 then some (max a b) else none

/-- The shape of an array: its rows and the length of the first. -/
def shape (a : List (List S)) : Nat × Nat := (a.length, (a.head?.map List.length).getD 0)

/-- broadcast.rs 5-16, `broadcast_shape` of two shapes. -/
def target (l r : Nat × Nat) : Option (Nat × Nat) := do
  let m ← dim 1 l.1
  let n ← dim 1 l.2
  let m ← dim m r.1
  let n ← dim n r.2
  some (m, n)

/-- A cell of an array, empty outside. -/
def at_ (a : List (List S)) (i j : Nat) : S := ((a[i]?.bind fun row => row[j]?)).getD .empty

/-- broadcast.rs 30-36, `project_index`, and reading the cell. -/
def project (a : List (List S)) (i j : Nat) : S := at_ a (if (shape a).1 = 1 then 0 else i) (if (shape a).2 = 1 then 0 else j)

/-- interpreter.rs 1435-1476, `combine_arrays`. -/
def combine (f : S → S → S) (l r : List (List S)) : Val :=
  match target (shape l) (shape r) with
  | none => .one (.err .value)
  | some (m, n) => .arr ((List.range m).map fun i => (List.range n).map fun j => f (project l i j) (project r i j))

/-- interpreter.rs 1478-1544, `broadcast_apply`. -/
def broadcast (f : S → S → S) : Val → Val → Val
  | .arr l, .arr r => combine f l r
  | .arr a, .one v =>
    match target (shape a) (1, 1) with
    | none => .one (.err .value)
    | some (m, n) => .arr ((List.range m).map fun i => (List.range n).map fun j => f (project a i j) v)
  | .one v, .arr a =>
    match target (1, 1) (shape a) with
    | none => .one (.err .value)
    | some (m, n) => .arr ((List.range m).map fun i => (List.range n).map fun j => f v (project a i j))
  | .one a, .one b => .one (f a b)

/-! ### Arithmetic -/

/-- interpreter.rs 1342-1357: `numeric_binary` of two cells. -/
def arith (env : Env) (op : F → F → F) (l r : S) : S :=
  match toArith env l, toArith env r with
  | .ok a, .ok b => sanitize (op a b)
  | .error e, _ => .err e
  | _, .error e => .err e

/-- interpreter.rs 1362-1388: `divide` of two cells; minus zero is zero. -/
def divide (env : Env) (op : F → F → F) (l r : S) : S :=
  match toArith env l, toArith env r with
  | .ok a, .ok b => if b = .fin 0 then .err .div0 else sanitize (op a b)
  | .error e, _ => .err e
  | _, .error e => .err e

/-- `x < 0`. -/
def F.neg : F → Bool
  | .fin q => decide (q < 0)
  | .ninf => true
  | _ => false

/-- `x.fract() == 0`. -/
def F.whole : F → Bool
  | .fin q => decide (q.den = 1)
  | _ => false

/-- interpreter.rs 1390-1415: `power` of two cells; `pow` is `f64::powf`. -/
def power (env : Env) (pow : F → F → F) (l r : S) : S :=
  match toArith env l, toArith env r with
  | .ok a, .ok b => if a.neg = true ∧ b.whole = false then .err .num else sanitize (pow a b)
  | .error e, _ => .err e
  | _, .error e => .err e

/-- interpreter.rs 985-1018, 1187-1203, 1417-1433: unary operators; `+` is the identity. -/
def unary (f : S → S) : Val → Val
  | .arr a => .arr (a.map fun row => row.map f)
  | .one s => .one (f s)

/-- interpreter.rs 1187-1203, `apply_number_unary`. -/
def numberUnary (env : Env) (op : F → F) (v : S) : S :=
  match toArith env v with
  | .ok a => sanitize (op a)
  | .error e => .err e

/-- interpreter.rs 1238-1246, `&`. -/
def concat (env : Env) (l r : Val) : Val :=
  let txt : Val → Str := fun v => match v with
    | .one s => toText env s
    | .arr a => env.debug a
  .one (.text (txt l ++ txt r))

/-! ### Comparison -/

/-- A comparison operator. -/
inductive Cmp where
  | eq | ne | gt | lt | ge | le
deriving DecidableEq

/-- `a < b` of floating point numbers. -/
def F.lt : F → F → Bool
  | .nan, _ => false
  | _, .nan => false
  | .ninf, .ninf => false
  | .ninf, _ => true
  | .fin _, .ninf => false
  | .fin a, .fin b => decide (a < b)
  | .fin _, .inf => true
  | .inf, _ => false

/-- `a == b` of floating point numbers. -/
def F.eq (a b : F) : Bool := decide (a = b) && decide (a ≠ .nan)

/-- interpreter.rs 1612-1622, `cmp_f64`. -/
def cmpF (op : Cmp) (a b : F) : Bool :=
  match op with
  | .eq => a.eq b
  | .ne => !(a.eq b)
  | .gt => b.lt a
  | .lt => a.lt b
  | .ge => b.lt a || a.eq b
  | .le => a.lt b || a.eq b

/-- `char::to_ascii_lowercase`. -/
def lower (c : Char) : Char := c.toLower

/-- `str::cmp`: the bytes of UTF-8 are ordered as the characters. -/
def cmpStr : Str → Str → Ordering
  | [], [] => .eq
  | [], _ :: _ => .lt
  | _ :: _, [] => .gt
  | a :: s, b :: t => if a.toNat < b.toNat then .lt else if b.toNat < a.toNat then .gt else cmpStr s t

/-- `Ordering as i32 as f64`. -/
def ordNum : Ordering → F
  | .lt => .fin (-1)
  | .eq => .fin 0
  | .gt => .fin 1

/-- interpreter.rs 1623-1639, `cmp_text`. -/
def cmpText (op : Cmp) (a b : Str) : Bool := cmpF op (ordNum (cmpStr (a.map lower) (b.map lower))) (.fin 0)

/-- interpreter.rs 1576-1608: `compare` of two cells that are no errors. -/
def holds (env : Env) (op : Cmp) (a b : S) : Bool :=
  match a, b with
  | .num x, .num y => cmpF op x y
  | .bool x, .bool y => cmpF op (if x then .fin 1 else .fin 0) (if y then .fin 1 else .fin 0)
  | .text x, .text y => cmpText op x y
  | a, b =>
    match toNumber env a, toNumber env b with
    | .ok x, .ok y => cmpF op x y
    | _, _ => cmpText op (toText env a) (toText env b)

/-- interpreter.rs 1556-1610: `compare` of two cells. -/
def compareCell (env : Env) (op : Cmp) (a b : S) : S :=
  match a, b with
  | .err e, _ => .err e
  | _, .err e => .err e
  | a, b => .bool (holds env op a b)

/-- interpreter.rs 1556-1610, `compare`. -/
def compare (env : Env) (op : Cmp) (l r : Val) : Val :=
  match l, r with
  | .one (.err e), _ => .one (.err e)
  | _, .one (.err e) => .one (.err e)
  | l, r => broadcast (compareCell env op) l r

end Verif.Ops

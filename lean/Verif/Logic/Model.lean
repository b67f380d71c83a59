import Mathlib.Data.Rat.Floor
import Mathlib.Algebra.Order.Floor.Ring

/-! # Logical functions (C98)

Model of AND, OR, NOT, XOR, IF, IFS, IFERROR, IFNA, SWITCH (`formualizer-eval/src/builtins/logical.rs`,
`logical_ext.rs`), CHOOSE (`builtins/lookup/choose.rs` 67-159) and of the operator `&` (`interpreter.rs` 1244-1250).

An argument is not evaluated before the function asks for it. A call gives what it returns and the positions of the
arguments it evaluated, in the order in which it did. An evaluation that fails with `Err` is told apart from one
that succeeds with an error value: both show as the same error in a cell, but the functions treat them differently.

Simplified: `Number` is a finite double, taken as a rational, with exact differences; the messages, formats and
shapes (rows and columns) are left out; a lambda as a value is the error value that `into_literal` makes of it. -/

namespace Verif.Logic

/-- The kinds of errors (`ExcelErrorKind`) that the functions tell apart. -/
inductive Err where
  | na
  | value
  | kind (n : Nat)
deriving DecidableEq, Repr

/-- A value in a cell (`LiteralValue`). `stamp` stands for dates, times and durations; pending
values are left out. -/
inductive V where
  | bool (b : Bool)
  | num (q : Rat)
  | int (i : Int)
  | empty
  | text (s : List Char)
  | err (e : Err)
  | stamp (q : Rat)
deriving DecidableEq, Repr

/-- `CalcValue` (traits.rs 49-55): a scalar, a scalar `LiteralValue::Array` or a range view, the latter two with
their cells row by row. -/
inductive CV where
  | one (v : V)
  | arr (cells : List V)
  | range (cells : List V)
deriving DecidableEq, Repr

/-- `LiteralValue` as it comes out of `into_literal`. -/
inductive Lit where
  | one (v : V)
  | arr (cells : List V)
deriving DecidableEq, Repr

/-- traits.rs 157-180: a range of one cell becomes the value of this cell. -/
def CV.lit : CV → Lit
  | .one v => .one v
  | .arr cells => .arr cells
  | .range [v] => .one v
  | .range cells => .arr cells

/-- traits.rs 182-187. -/
def CV.asScalar : CV → Option V
  | .one v => some v
  | _ => none

/-- An argument by its syntax: a reference (with what it gives as a value and as a range of cells), an array
literal, or any other expression. -/
inductive Arg where
  | ref (value : Except Err CV) (cells : Except Err (List V))
  | array (elems : List (Except Err V))
  | expr (value : Except Err CV)

/-- The elements of an array literal up to the first that fails (interpreter.rs 1310-1325). -/
def collect : List (Except Err V) → Except Err (List V)
  | [] => .ok []
  | .error e :: _ => .error e
  | .ok v :: rest => match collect rest with
    | .error e => .error e
    | .ok vs => .ok (v :: vs)

/-- An element that fails counts as an error value. -/
def asValue : Except Err V → V
  | .ok v => v
  | .error e => .err e

/-- `ArgumentHandle::value` (traits.rs 372-430). -/
def Arg.value : Arg → Except Err CV
  | .ref v _ => v
  | .array es => match collect es with
    | .error e => .error e
    | .ok vs => .ok (.range vs)
  | .expr v => v

/-- `lazy_values_owned` (traits.rs 880-1011): the cells of a reference, the elements of an array literal, or one
value, which may be an array. -/
def Arg.values : Arg → Except Err (List Lit)
  | .ref _ (.error e) => .error e
  | .ref _ (.ok vs) => .ok (vs.map .one)
  | .array es => .ok (es.map fun e => .one (asValue e))
  | .expr (.error e) => .error e
  | .expr (.ok cv) => .ok [cv.lit]

/-- The cells of a value that is an array or a range (traits.rs 648-661, 793-816). -/
def CV.cells : CV → Option (List V)
  | .one _ => none
  | .arr vs => some vs
  | .range vs => some vs

/-- `range_view` (traits.rs 793-816), `none` for `Err`. -/
def Arg.view : Arg → Option (List V)
  | .ref _ (.ok vs) => some vs
  | .ref _ (.error _) => none
  | a@(.array _) | a@(.expr _) => match a.value with
    | .error _ => none
    | .ok cv => cv.cells

/-- What a call returns, and the arguments it evaluated. -/
abbrev W := Except Err CV × List Nat

/-- Return a value. -/
def give (v : V) (seen : List Nat) : W := (.ok (.one v), seen)

/-! ## AND, OR, NOT, XOR -/

/-- What one value does to AND or OR. -/
inductive Verdict where
  | stop
  | pass
  | bad (e : Err)
deriving DecidableEq, Repr

/-- logical.rs 216-256. -/
def andJudge : Lit → Verdict
  | .one (.err e) => .bad e
  | .one .empty => .stop
  | .one (.bool b) => if b then .pass else .stop
  | .one (.num q) => if q = 0 then .stop else .pass
  | .one (.int i) => if i = 0 then .stop else .pass
  | _ => .bad .value

/-- logical.rs 343-382. -/
def orJudge : Lit → Verdict
  | .one (.err e) => .bad e
  | .one .empty => .pass
  | .one (.bool b) => if b then .stop else .pass
  | .one (.num q) => if q ≠ 0 then .stop else .pass
  | .one (.int i) => if i ≠ 0 then .stop else .pass
  | _ => .bad .value

/-- The inner loop: `none` if a value decides, else the first error so far. -/
def scan (j : Lit → Verdict) : Option Err → List Lit → Option (Option Err)
  | first, [] => some first
  | first, v :: vs => match j v with
    | .stop => none
    | .pass => scan j first vs
    | .bad e => scan j (first.or (some e)) vs

/-- After the loop: logical.rs 259-265, 385-391. -/
def ending (d : Bool) : Option Err → V
  | some e => .err e
  | none => .bool d

/-- The outer loop of AND (logical.rs 212-265) and OR (339-391); `hit` is the result once a value decides. -/
def reduce (j : Lit → Verdict) (hit : Bool) : List Arg → Nat → Option Err → W
  | [], _, first => give (ending (!hit) first) []
  | a :: as, i, first => match a.values with
    | .error e => (.error e, [i])
    | .ok vs => match scan j first vs with
      | none => give (.bool hit) [i]
      | some first' => let r := reduce j hit as (i + 1) first'; (r.1, i :: r.2)

/-- AND (logical.rs 206-266); the arity is checked by `dispatch` (function.rs 206-217). -/
def AND (args : List Arg) : W := if args.length < 1 then give (.err .value) [] else reduce andJudge false args 0 none

/-- OR (logical.rs 333-392). -/
def OR (args : List Arg) : W := if args.length < 1 then give (.err .value) [] else reduce orJudge true args 0 none

/-- logical_ext.rs 80-95: the negation of one value. -/
def notLit : Lit → V
  | .one (.bool b) => .bool (!b)
  | .one (.num q) => .bool (q = 0)
  | .one (.int i) => .bool (i = 0)
  | .one .empty => .bool true
  | .one (.err e) => .err e
  | _ => .err .value

/-- NOT (logical_ext.rs 70-98). -/
def NOT : List Arg → W
  | [a] => match a.value with
    | .error e => (.error e, [0])
    | .ok cv => give (notLit cv.lit) [0]
  | _ => give (.err .value) []

/-- What one value does to XOR: it counts, does not count, or is an error. -/
def xorJudge : Lit → Verdict
  | .one (.bool b) => if b then .stop else .pass
  | .one (.num q) => if q ≠ 0 then .stop else .pass
  | .one (.int i) => if i ≠ 0 then .stop else .pass
  | .one .empty => .pass
  | .one (.err e) => .bad e
  | _ => .bad .value

/-- The cells of one range: how many count, and the error noted in `err`, each overwriting the one before, as long as
`first_error` is not set. -/
def xorCells (first : Option Err) : List V → Nat → Option Err → Nat × Option Err
  | [], n, err => (n, err)
  | v :: vs, n, err => match xorJudge (.one v) with
    | .stop => xorCells first vs (n + 1) err
    | .pass => xorCells first vs n err
    | .bad e => xorCells first vs n (if first.isNone then some e else err)

/-- XOR, the loop over the arguments. `dispatch` has evaluated all of them before (args.rs 258-337), which changes
nothing: what it finds is not used, and `ArgumentHandle` remembers values. -/
def xorLoop : List Arg → Nat → Option Err → Except Err V
  | [], n, some e => .ok (.err e)
  | [], n, none => .ok (.bool (n % 2 = 1))
  | a :: as, n, first => match a.view with
    | some cells => let r := xorCells first cells n none; xorLoop as r.1 (first.or r.2)
    | none => match a.value with
      | .error e => .error e
      | .ok cv => match xorJudge cv.lit with
        | .stop => xorLoop as (n + 1) first
        | .pass => xorLoop as n first
        | .bad e => xorLoop as n (first.or (some e))

/-- XOR (logical_ext.rs 158-247). -/
def XOR (args : List Arg) : W :=
  if args.length < 1 then give (.err .value) []
  else match xorLoop args 0 none with
    | .error e => (.error e, List.range args.length)
    | .ok v => give v (List.range args.length)

/-! ## IF, IFS, IFERROR, IFNA, SWITCH, CHOOSE -/

/-- A condition. -/
inductive Cond where
  | yes
  | no
  | err (e : Err)
  | bad
deriving DecidableEq, Repr

/-- The conditions of IF (logical.rs 476-487) and IFS. -/
def cond : Lit → Cond
  | .one (.bool b) => if b then .yes else .no
  | .one (.num q) => if q ≠ 0 then .yes else .no
  | .one (.int i) => if i ≠ 0 then .yes else .no
  | .one .empty => .no
  | .one (.err e) => .err e
  | _ => .bad

/-- IF after its condition (logical.rs 476-497). An error as a condition falls under `_`. -/
def ifThen (a : Arg) (b : Option Arg) : Cond → W
  | .yes => (a.value, [0, 1])
  | .no => match b with
    | some b => (b.value, [0, 2])
    | none => give (.bool false) [0]
  | .err _ => give (.err .value) [0]
  | .bad => give (.err .value) [0]

/-- IF with its arguments told apart. -/
def ifWith (c a : Arg) (b : Option Arg) : W :=
  match c.value with
  | .error e => (.error e, [0])
  | .ok cv => ifThen a b (cond cv.lit)

/-- IF (logical.rs 464-498). -/
def IF : List Arg → W
  | [c, a] => ifWith c a none
  | [c, a, b] => ifWith c a (some b)
  | _ => give (.err .value) []

/-- The pairs of IFS, from position `i`. -/
def ifsFrom : List Arg → Nat → W
  | c :: a :: rest, i => match c.value with
    | .error e => (.error e, [i])
    | .ok cv => match cond cv.lit with
      | .yes => (a.value, [i, i + 1])
      | .no => let r := ifsFrom rest (i + 2); (r.1, i :: r.2)
      | .err e => give (.err e) [i]
      | .bad => give (.err .value) [i]
  | _, _ => give (.err .na) []

/-- IFS (logical_ext.rs 495-531). -/
def IFS (args : List Arg) : W :=
  if args.length < 2 ∨ args.length % 2 ≠ 0 then give (.err .value) [] else ifsFrom args 0

/-- IFERROR looks at its first argument: is it replaced? -/
def failed : Except Err CV → Bool
  | .error _ => true
  | .ok cv => match cv.asScalar with
    | some (.err _) => true
    | _ => false

/-- IFERROR (logical_ext.rs 320-335). -/
def IFERROR : List Arg → W
  | [a, b] => if failed a.value then (b.value, [0, 1]) else (a.value, [0])
  | _ => give (.err .value) []

/-- IFNA looks at its first argument. -/
def missing : Except Err CV → Bool
  | .error _ => false
  | .ok cv => cv.asScalar = some (.err .na)

/-- IFNA (logical_ext.rs 409-427). -/
def IFNA : List Arg → W
  | [a, b] => if missing a.value then (b.value, [0, 1]) else (a.value, [0])
  | _ => give (.err .value) []

/-- `to_ascii_lowercase`. -/
def lower (c : Char) : Char := if 'A' ≤ c ∧ c ≤ 'Z' then Char.ofNat (c.toNat + 32) else c

/-- `switch_values_equal` (logical_ext.rs 654-665); `1e-12` is taken as exactly that. -/
def same : Lit → Lit → Bool
  | .one (.num x), .one (.num y) => |x - y| < 1 / 10 ^ 12
  | .one (.int x), .one (.int y) => x = y
  | .one (.num x), .one (.int y) => |x - y| < 1 / 10 ^ 12
  | .one (.int x), .one (.num y) => |x - y| < 1 / 10 ^ 12
  | .one (.bool x), .one (.bool y) => x = y
  | .one (.text x), .one (.text y) => x.map lower = y.map lower
  | .one .empty, .one .empty => true
  | _, _ => false

/-- The pairs of SWITCH and the default, from position `i`. -/
def switchFrom (x : Lit) : List Arg → Nat → W
  | [], _ => give (.err .na) []
  | [d], i => (d.value, [i])
  | v :: a :: rest, i => match v.value with
    | .error e => (.error e, [i])
    | .ok cv => if same x cv.lit then (a.value, [i, i + 1]) else let r := switchFrom x rest (i + 2); (r.1, i :: r.2)

/-- SWITCH once its first argument is known. -/
def switchOn (rest : List Arg) : Lit → W
  | .one (.err e) => give (.err e) [0]
  | x => let r := switchFrom x rest 1; (r.1, 0 :: r.2)

/-- SWITCH (logical_ext.rs 615-652). -/
def SWITCH : List Arg → W
  | x :: a :: b :: rest => match x.value with
    | .error e => (.error e, [0])
    | .ok cv => switchOn (a :: b :: rest) cv.lit
  | _ => give (.err .value) []

/-- `n as i64`: cut off the fraction, stay within `i64`. -/
def asI64 (q : Rat) : Int :=
  max (-9223372036854775808) (min 9223372036854775807 (if 0 ≤ q then ⌊q⌋ else ⌈q⌉))

/-- The index of CHOOSE (choose.rs 130-146). -/
def chooseIndex : Lit → Except Err Int
  | .one (.err e) => .error e
  | .one (.num q) => .ok (asI64 q)
  | .one (.int i) => .ok i
  | _ => .error .value

/-- choose.rs 148-157. -/
def pick (choices : List Arg) (k : Int) : W :=
  if k < 1 then give (.err .value) [0]
  else match choices[k.toNat - 1]? with
    | none => give (.err .value) [0]
    | some a => (a.value, [0, k.toNat])

/-- CHOOSE once its index is known. -/
def chooseOn (choices : List Arg) : Except Err Int → W
  | .error e => give (.err e) [0]
  | .ok k => pick choices k

/-- CHOOSE (choose.rs 118-158). -/
def CHOOSE : List Arg → W
  | x :: a :: rest => match x.value with
    | .error e => (.error e, [0])
    | .ok cv => chooseOn (a :: rest) (chooseIndex cv.lit)
  | _ => give (.err .value) []

/-! ## `&` -/

/-- `to_text_invariant` (coercion.rs 150-167). How numbers, errors and arrays (their debug output) are written are
parameters. -/
def toText (number : Rat → List Char) (error : Err → List Char) (debug : List V → List Char) : Lit → List Char
  | .one (.text s) => s
  | .one (.num q) => number q
  | .one (.int i) => number i
  | .one (.bool b) => if b then ['T', 'R', 'U', 'E'] else ['F', 'A', 'L', 'S', 'E']
  | .one (.err e) => error e
  | .one .empty => []
  | .one (.stamp q) => number q
  | .arr vs => debug vs

/-- `&` (interpreter.rs 1211-1216, 1244-1250). -/
def concat (number : Rat → List Char) (error : Err → List Char) (debug : List V → List Char) (a b : Arg) : W :=
  match a.value with
  | .error e => (.error e, [0])
  | .ok x => match b.value with
    | .error e => (.error e, [0, 1])
    | .ok y => give (.text (toText number error debug x.lit ++ toText number error debug y.lit)) [0, 1]

end Verif.Logic

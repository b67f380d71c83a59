/-!
# Local names: `LET`, `LAMBDA` and what a formula declares to read

Model of `/repo/crates/formualizer-eval/src`:
* `builtins/lambda.rs` 17-45, 146-345 (`LET`, `LAMBDA`, calls of closures),
* `interpreter.rs` 65-115 (`LocalEnv`), 229-254, 735-810, 835-850, 915-935, 1268-1300 (names, functions and local functions),
* `traits.rs` 155-180 (`into_literal`), 402-460 (`value`, `value_with_env`), 535-650 (`reference_attempt`, `resolve_once`),
* `engine/refs.rs` 151-262 (`visit_tree_references`), `engine/ingest_pipeline.rs` 332-385.

Numbers, texts, arrays, references and errors are opaque: a world says what a reference, a name of the workbook, an operator and a builtin function give.  A function that
returns an error and one that returns an error value are kept apart, as in the code.  Functions that return references (`INDEX`, `OFFSET`, `INDIRECT`), the operator `:`, the
implicit intersection and arrays of formulas are left out.
-/

namespace Verif.Local

/-- A text. -/
abbrev Str := List Char

/-- interpreter.rs 87-89, `LocalEnv::norm`: `to_ascii_uppercase`. -/
def norm (s : Str) : Str := s.map Char.toUpper

/-- A formula.  `lit` is a literal, `ref` a reference to cells, `name` a name, `op` an operator, `fn` a function by name and `call` a formula in place of a function. -/
inductive Expr where
  | lit (v : Nat)
  | ref (r : Nat)
  | name (s : Str)
  | op (o : Nat) (args : List Expr)
  | fn (f : Str) (args : List Expr)
  | call (callee : Expr) (args : List Expr)

/-- interpreter.rs 66-69, `LocalBinding`, with the closure of lambda.rs 176-180.  The bindings in scope are a list, the innermost first. -/
inductive Bind where
  | val (v : Nat)
  | clos (params : List Str) (body : Expr) (env : List (Str × Bind))

/-- interpreter.rs 71-79, `LocalEnv`: the frames have one binding each. -/
abbrev Env := List (Str × Bind)

/-- interpreter.rs 91-103, `LocalEnv::lookup`. -/
def lookup (env : Env) (s : Str) : Option Bind := (env.find? fun p => p.1 == norm s).map (·.2)

/-- interpreter.rs 105-114, `LocalEnv::with_binding`. -/
def bind (env : Env) (s : Str) (b : Bind) : Env := (norm s, b) :: env

/-- A value or an error that ends the evaluation. -/
abbrev Res := Except Nat Bind

/-- A builtin function: which of its arguments it reads as ranges, and what it makes of them. -/
structure Builtin where
  byRange : Nat → Bool
  run : List (Except Nat Nat) → Except Nat Nat

/-- What a function name stands for. -/
inductive Fn where
  | let_
  | lambda
  | builtin (b : Builtin)

/-- The workbook around a formula. -/
structure World where
  ref : Nat → Except Nat Nat
  name : Str → Except Nat Nat
  op : Nat → List Nat → Except Nat Nat
  fn : Str → Option Fn
  /-- the error value `#VALUE!` -/
  valueErr : Nat
  /-- the error value `#CALC!` -/
  calcErr : Nat
  /-- the error `#NAME?` -/
  nameErr : Nat
  /-- the error value that is stored for calls of formulas, data_store.rs 440-446 -/
  nimplErr : Nat

/-- traits.rs 157-180, `into_literal`. -/
def lit (w : World) : Bind → Nat
  | .val v => v
  | .clos _ _ _ => w.calcErr

/-- lambda.rs 17-25, `local_name_from_ast`. -/
def localName : Expr → Option Str
  | .name s => some s
  | _ => none

/-- The first error, or all values: `?` in a loop. -/
def strict : List Res → Except Nat (List Bind)
  | [] => .ok []
  | .error e :: _ => .error e
  | .ok b :: rest =>
    match strict rest with
    | .error e => .error e
    | .ok bs => .ok (b :: bs)

/-- lambda.rs 159-172: the pairs of `LET` from left to right, then the last formula. -/
def letGo (w : World) (ev : Env → Expr → Option Res) : Env → List Expr → Option Res
  | env, [body] => ev env body
  | env, x :: e :: rest =>
    match localName x with
    | none => some (.ok (.val w.valueErr))
    | some s =>
      match ev env e with
      | none => none
      | some (.error err) => some (.error err)
      | some (.ok b) => letGo w ev (bind env s b) rest
  | _, [] => some (.ok (.val w.valueErr))

/-- lambda.rs 318-335: the parameters of `LAMBDA`, which must be different names. -/
def lamParams : List Expr → List Str → Option (List Str)
  | [], acc => some acc
  | p :: rest, acc =>
    match localName p with
    | none => none
    | some s => if acc.any (fun t => norm t == norm s) then none else lamParams rest (acc ++ [s])

/-- lambda.rs 311-345: `LAMBDA` makes a closure. -/
def lamGo (w : World) (env : Env) (args : List Expr) : Res :=
  match args.getLast? with
  | none => .ok (.val w.valueErr)
  | some body =>
    match lamParams args.dropLast [] with
    | none => .ok (.val w.valueErr)
    | some ps => .ok (.clos ps body env)

/-- lambda.rs 204-208: the parameters are bound from left to right. -/
def bindAll (env : Env) : List Str → List Nat → Env
  | p :: ps, v :: vs => bindAll (bind env p (.val v)) ps vs
  | _, _ => env

/-- traits.rs 402-430 and 606-650: an argument read as a value, or as a range; as a range a name is one of the workbook. -/
def argOf (w : World) (ev : Expr → Option Res) (range : Bool) (e : Expr) : Option (Except Nat Nat) :=
  match range, e with
  | true, .name s => some (w.name s)
  | true, .ref r => some (w.ref r)
  | _, e => (ev e).map fun r => r.map (lit w)

/-- The arguments of a builtin function, the first of which has the place `i`. -/
def argsOf (w : World) (ev : Expr → Option Res) (byRange : Nat → Bool) : Nat → List Expr → Option (List (Except Nat Nat))
  | _, [] => some []
  | i, e :: rest => do
    let r ← argOf w ev (byRange i) e
    let rs ← argsOf w ev byRange (i + 1) rest
    some (r :: rs)

/-- All values of a list of formulas. -/
def evs (ev : Expr → Option Res) : List Expr → Option (List Res)
  | [] => some []
  | e :: rest => do
    let r ← ev e
    let rs ← evs ev rest
    some (r :: rs)

/-- interpreter.rs 578-810 and 835-935, 1268-1300: evaluation; an unknown function is an error that ends it, as in 578-810. `n` bounds the nested steps; `none` if they do not suffice. -/
def eval (w : World) : Nat → Env → Expr → Option Res
  | 0, _, _ => none
  | _ + 1, _, .lit v => some (.ok (.val v))
  | _ + 1, _, .ref r => some ((w.ref r).map .val)
  | _ + 1, env, .name s =>
    match lookup env s with
    | some b => some (.ok b)
    | none => some ((w.name s).map .val)
  | n + 1, env, .op o args => do
    let rs ← evs (eval w n env) args
    match strict rs with
    | .error e => some (.error e)
    | .ok bs => some ((w.op o (bs.map (lit w))).map .val)
  | n + 1, env, .fn f args =>
    match w.fn f with
    | some .let_ => if args.length < 3 ∨ args.length % 2 = 0 then some (.ok (.val w.valueErr)) else letGo w (eval w n) env args
    | some .lambda => some (lamGo w env args)
    | some (.builtin b) => do
      let rs ← argsOf w (eval w n env) b.byRange 0 args
      some ((b.run rs).map .val)
    | none =>
      match lookup env f with
      | some (.clos ps body cenv) => do
        let rs ← evs (eval w n env) args
        match strict rs with
        | .error e => some (.error e)
        | .ok bs => if bs.length ≠ ps.length then some (.ok (.val w.valueErr)) else eval w n (bindAll cenv ps (bs.map (lit w))) body
      | _ => some (.error w.nameErr)
  | _ + 1, _, .call _ _ => some (.ok (.val w.nimplErr))

/-! ### What a formula declares -/

/-- What a formula reads outside of itself. -/
inductive Item where
  | ref (r : Nat)
  | name (s : Str)
deriving DecidableEq

/-- refs.rs 151-156, `LocalBindingStyle`. -/
inductive Style where
  | none
  | pairs
  | params
deriving DecidableEq

/-- ingest_pipeline.rs 344-368 with the contracts of lambda.rs 125-132 and 277-284, and the guard of refs.rs 204-206. -/
def style (w : World) (f : Str) (arity : Nat) : Style :=
  match w.fn f with
  | some .let_ => if arity ≥ 3 ∧ arity % 2 = 1 then .pairs else .none
  | some .lambda => if arity ≥ 1 then .params else .none
  | _ => .none

/-- refs.rs 164-168, a frame of the stack. -/
inductive Frame where
  | node (e : Expr)
  | addBinding (s : Str)
  | exitScope

/-- refs.rs 211-221: the frames of the pairs of `LET`, that of the last formula included. -/
def pairFrames : List Expr → List Frame
  | [] => []
  | [body] => [.node body]
  | x :: e :: rest =>
    .node e :: ((match localName x with
      | some s => [.addBinding s]
      | none => []) ++ pairFrames rest)

/-- refs.rs 226-234: the names of the parameters. -/
def paramScope : List Expr → List Str
  | [] => []
  | p :: rest =>
    (match localName p with
      | some s => [norm s]
      | none => []) ++ paramScope rest

/-- refs.rs 170-262, `visit_tree_references`: the stack, the scopes and what has been visited; `none` if `n` steps do not suffice. -/
def visit (w : World) : Nat → List Frame → List (List Str) → List Item → Option (List Item)
  | _, [], _, out => some out
  | 0, _ :: _, _, _ => none
  | n + 1, .addBinding s :: stack, scopes, out =>
    visit w n stack (match scopes with
      | [] => []
      | top :: rest => (norm s :: top) :: rest) out
  | n + 1, .exitScope :: stack, scopes, out => visit w n stack scopes.tail out
  | n + 1, .node (.lit _) :: stack, scopes, out => visit w n stack scopes out
  | n + 1, .node (.ref r) :: stack, scopes, out => visit w n stack scopes (out ++ [.ref r])
  | n + 1, .node (.name s) :: stack, scopes, out =>
    if scopes.any (fun scope => scope.contains (norm s)) then visit w n stack scopes out else visit w n stack scopes (out ++ [.name s])
  | n + 1, .node (.op _ args) :: stack, scopes, out => visit w n (args.map .node ++ stack) scopes out
  | n + 1, .node (.call c args) :: stack, scopes, out => visit w n (.node c :: (args.map .node ++ stack)) scopes out
  | n + 1, .node (.fn f args) :: stack, scopes, out =>
    match style w f args.length with
    | .pairs => visit w n (pairFrames args ++ .exitScope :: stack) ([] :: scopes) out
    | .params =>
      match args.getLast? with
      | some body => visit w n (.node body :: .exitScope :: stack) (paramScope args.dropLast :: scopes) out
      | none => visit w n stack scopes out
    | .none => visit w n (args.map .node ++ stack) scopes out

end Verif.Local

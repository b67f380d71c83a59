/-
Formulas under one template (property C67).

Sources: /repo/crates/formualizer-eval/src/formula_plane/template_canonical.rs 433-640, 655-735, 880-945 (`canonicalize_template_with_provider`,
`canonicalize_expr_inner`, `record_literal_slot`, `canonicalize_reference`, `axis_pair_from_range`, `axis_from_value`), 46-88, 1113-1203,
1296-1400, 1537-1574 (`FormulaTemplateKey`, `write_parameterized_expr_key` and the writers of its parts);
/repo/crates/formualizer-eval/src/formula_plane/placement.rs 1657-1708 (`build_template_slot_map`);
/repo/crates/formualizer-eval/src/interpreter.rs 214-227, 585-640, 1642-1711 (`effective_reference`, `evaluate_arena_ast`,
`relocate_reference_for_offset`, `shift_axis_for_offset`).

Formulas that are put under a template have no calls of values, arrays, tables, 3D and external references, spill references or `@`
(the code rejects them, template_canonical.rs 584-622, 721-822); these are left out.  A function is what its name resolves to (the
encoding of its semantic identity); the spelling of its name is left out.  Texts are lists of characters.
-/
import Verif.Util

namespace Verif.Template

/-- A text. -/
abbrev Text := List Char

/-- A function: the encoding of its semantic identity. -/
abbrev Fn := List UInt8

/-- A reference of a formula, with the marks of absolute axes (parser.rs, `ReferenceType`). -/
inductive Ref where
  | cell (sheet : Option Text) (row col : Nat) (rowAbs colAbs : Bool)
  | range (sheet : Option Text) (startRow startCol endRow endCol : Option Nat) (startRowAbs startColAbs endRowAbs endColAbs : Bool)
  | named (name : Text)
deriving DecidableEq

/-- A formula with constants of type `V`. -/
inductive Fm (V : Type) where
  | lit (v : V)
  | omitted
  | ref (r : Ref)
  | unary (op : Text) (e : Fm V)
  | binary (op : Text) (l r : Fm V)
  | func (f : Fn) (args : List (Fm V))

/-- template_canonical.rs, `AxisRef`. -/
inductive Axis where
  | rel (offset : Int)
  | abs (index : Nat)
  | openStart
  | openEnd
  | whole
deriving DecidableEq

/-- template_canonical.rs, `CanonicalReference`. -/
inductive CRef where
  | cell (sheet : Option Text) (row col : Axis)
  | range (sheet : Option Text) (startRow startCol endRow endCol : Axis)
  | named (name : Text)
deriving DecidableEq

/-- template_canonical.rs, `CanonicalReferenceContext`. -/
inductive Ctx where
  | value
  | reference
  | arg (f : Fn) (i : Nat)
deriving DecidableEq

/-- template_canonical.rs, `CanonicalExpr`. -/
inductive CExpr (V : Type) where
  | lit (v : V)
  | omitted
  | ref (ctx : Ctx) (r : CRef)
  | unary (op : Text) (e : CExpr V)
  | binary (op : Text) (l r : CExpr V)
  | func (f : Fn) (args : List (CExpr V))

variable {V : Type}

/-! ### Canonical form -/

/-- template_canonical.rs 915-930, `axis_from_value`. -/
def axisOf (value anchor : Nat) (absolute : Bool) : Axis := if absolute then .abs value else .rel ((value : Int) - anchor)

/-- template_canonical.rs 891-913, `axis_pair_from_range`. -/
def axisPair (start stop : Option Nat) (anchor : Nat) (startAbs stopAbs : Bool) : Axis × Axis :=
  match start, stop with
  | some s, some e => (axisOf s anchor startAbs, axisOf e anchor stopAbs)
  | none, none => (.whole, .whole)
  | none, some e => (.openStart, axisOf e anchor stopAbs)
  | some s, none => (axisOf s anchor startAbs, .openEnd)

/-- template_canonical.rs 667-797, `canonicalize_reference`. -/
def canonRef (row col : Nat) : Ref → CRef
  | .cell s r c ra ca => .cell s (axisOf r row ra) (axisOf c col ca)
  | .range s sr sc er ec sra sca era eca =>
    let rows := axisPair sr er row sra era
    let cols := axisPair sc ec col sca eca
    .range s rows.1 cols.1 rows.2 cols.2
  | .named n => .named n

mutual

/-- template_canonical.rs 514-622, `canonicalize_expr_inner`, for a formula in cell `(row, col)`. -/
def canon (row col : Nat) (ctx : Ctx) : Fm V → CExpr V
  | .lit v => .lit v
  | .omitted => .omitted
  | .ref r => .ref ctx (canonRef row col r)
  | .unary op e => .unary op (canon row col .value e)
  | .binary op l r =>
    let c := if op = [':'] then Ctx.reference else Ctx.value
    .binary op (canon row col c l) (canon row col c r)
  | .func f args => .func f (canonArgs row col f 0 args)

/-- template_canonical.rs 560-575: the arguments of a function. -/
def canonArgs (row col : Nat) (f : Fn) : Nat → List (Fm V) → List (CExpr V)
  | _, [] => []
  | i, a :: as => canon row col (.arg f i) a :: canonArgs row col f (i + 1) as

end

mutual

/-- template_canonical.rs 624-636, `record_literal_slot`: the constants, from left to right. -/
def lits : Fm V → List V
  | .lit v => [v]
  | .omitted => []
  | .ref _ => []
  | .unary _ e => lits e
  | .binary _ l r => lits l ++ lits r
  | .func _ args => litsArgs args

/-- The constants of a list of formulas. -/
def litsArgs : List (Fm V) → List V
  | [] => []
  | a :: as => lits a ++ litsArgs as

end

/-! ### The key of a template -/

/-- `to_string` of a number. -/
def dec (n : Nat) : Text := Nat.toDigits 10 n

/-- `to_string` of a signed number. -/
def decInt : Int → Text
  | .ofNat n => dec n
  | .negSucc n => '-' :: dec (n + 1)

/-- The number of bytes of a text. -/
def bytes (s : Text) : Nat := (s.map Char.utf8Size).sum

/-- template_canonical.rs 1568-1572, `write_string_key`. -/
def stringKey (s : Text) : Text := dec (bytes s) ++ ':' :: s

/-- A byte in two hexadecimal digits. -/
def hex (b : UInt8) : Text := [Nat.digitChar (b.toNat / 16), Nat.digitChar (b.toNat % 16)]

/-- template_canonical.rs 1544-1566, `write_function_id_key`. -/
def fnKey (f : Fn) : Text := ['s', 'e', 'm', 'a', 'n', 't', 'i', 'c', ':'] ++ f.flatMap hex

/-- template_canonical.rs 1392-1407, `write_axis_key`. -/
def axisKey : Axis → Text
  | .rel o => ['r', 'e', 'l', ':'] ++ decInt o
  | .abs i => ['a', 'b', 's', ':'] ++ dec i
  | .openStart => ['o', 'p', 'e', 'n', '_', 's', 't', 'a', 'r', 't']
  | .openEnd => ['o', 'p', 'e', 'n', '_', 'e', 'n', 'd']
  | .whole => ['w', 'h', 'o', 'l', 'e', '_', 'a', 'x', 'i', 's']

/-- template_canonical.rs 1382-1390, `write_sheet_key`. -/
def sheetKey : Option Text → Text
  | none => ['s', 'h', 'e', 'e', 't', ':', 'c', 'u', 'r', 'r', 'e', 'n', 't']
  | some n => ['s', 'h', 'e', 'e', 't', ':', 'n', 'a', 'm', 'e', ':'] ++ stringKey n

/-- template_canonical.rs 1337-1380, `write_reference_key`. -/
def refKey : CRef → Text
  | .cell s r c => ['c', 'e', 'l', 'l', '('] ++ sheetKey s ++ ';' :: axisKey r ++ ';' :: axisKey c ++ [')']
  | .range s sr sc er ec =>
    ['r', 'a', 'n', 'g', 'e', '('] ++ sheetKey s ++ ';' :: axisKey sr ++ ';' :: axisKey sc ++ ';' :: axisKey er ++ ';' :: axisKey ec ++ [')']
  | .named n => ['n', 'a', 'm', 'e', 'd', '('] ++ stringKey n ++ [')']

/-- template_canonical.rs 1317-1335, `write_reference_context_key`. -/
def ctxKey : Ctx → Text
  | .value => ['v', 'a', 'l', 'u', 'e']
  | .reference => ['r', 'e', 'f', 'e', 'r', 'e', 'n', 'c', 'e']
  | .arg f i => ['f', 'n', '_', 'a', 'r', 'g', ':'] ++ fnKey f ++ ':' :: dec i

/-- `u16::saturating_add(1)`. -/
def nextSlot (n : Nat) : Nat := min (n + 1) 65535

mutual

/-- template_canonical.rs 1118-1203, `write_parameterized_expr_key_inner`: the text, and the next number of a constant. -/
def exprKey (n : Nat) : CExpr V → Text × Nat
  | .lit _ => (['l', 'i', 't', '_', 's', 'l', 'o', 't', '('] ++ dec n ++ [')'], nextSlot n)
  | .omitted => (['o', 'm', 'i', 't', 't', 'e', 'd'], n)
  | .ref ctx r => (['r', 'e', 'f', '('] ++ ctxKey ctx ++ ';' :: refKey r ++ [')'], n)
  | .unary op e =>
    let x := exprKey n e
    (['u', 'n', 'a', 'r', 'y', '('] ++ stringKey op ++ ';' :: x.1 ++ [')'], x.2)
  | .binary op l r =>
    let x := exprKey n l
    let y := exprKey x.2 r
    (['b', 'i', 'n', 'a', 'r', 'y', '('] ++ stringKey op ++ ';' :: x.1 ++ ';' :: y.1 ++ [')'], y.2)
  | .func f args =>
    let x := argsKey n args
    (['f', 'n', '('] ++ fnKey f ++ ';' :: dec args.length ++ ':' :: x.1 ++ [')'], x.2)

/-- template_canonical.rs 1162-1165: the arguments of a function. -/
def argsKey (n : Nat) : List (CExpr V) → Text × Nat
  | [] => ([], n)
  | a :: as =>
    let x := exprKey n a
    let y := argsKey x.2 as
    (x.1 ++ ',' :: y.1, y.2)

end

/-- template_canonical.rs 55-74, `from_writer`: the text that makes up the key.  The labels are a text at its end. -/
def payload (e : CExpr V) (labels : Text) : Text :=
  ['f', 'p', '4', 'a', '1', ':'] ++ (exprKey 0 e).1 ++ ['|', 'l', 'a', 'b', 'e', 'l', 's', '='] ++ labels

/-! ### What a cell of a span computes -/

/-- interpreter.rs 1702-1711, `shift_axis_for_offset`; `none` is the error. -/
def shiftAxis (value : Nat) (delta : Int) (absolute : Bool) : Option Nat :=
  if absolute then some value
  else if (value : Int) + delta < 1 ∨ (value : Int) + delta > 2 ^ 32 - 1 then none
  else some ((value : Int) + delta).toNat

/-- interpreter.rs 1692-1700, `shift_optional_axis_for_offset`. -/
def shiftOpt (value : Option Nat) (delta : Int) (absolute : Bool) : Option (Option Nat) :=
  match value with
  | none => some none
  | some v => (shiftAxis v delta absolute).map some

/-- interpreter.rs 1642-1690, `relocate_reference_for_offset`. -/
def relocate (dr dc : Int) : Ref → Option Ref
  | .cell s r c ra ca => do
    let r ← shiftAxis r dr ra
    let c ← shiftAxis c dc ca
    some (.cell s r c ra ca)
  | .range s sr sc er ec sra sca era eca => do
    let sr ← shiftOpt sr dr sra
    let sc ← shiftOpt sc dc sca
    let er ← shiftOpt er dr era
    let ec ← shiftOpt ec dc eca
    some (.range s sr sc er ec sra sca era eca)
  | .named n => some (.named n)

/-- interpreter.rs 214-227, `effective_reference`. -/
def effectiveRef (dr dc : Int) (r : Ref) : Option Ref := if dr = 0 ∧ dc = 0 then some r else relocate dr dc r

/-- placement.rs 1657-1708, `build_template_slot_map`: the table from nodes to constants, and the next number.  The nodes of the
constants are those of the formula store (property C63): equal constants of a formula can be one node. -/
def slotMap : List Nat → Nat → (Nat → Option Nat) → (Nat → Option Nat) × Nat
  | [], n, m => (m, n)
  | id :: ids, n, m => slotMap ids (nextSlot n) fun k => if k = id then some n else m k

mutual

/-- interpreter.rs 585-640 and the paths for operators and functions: the formula that is computed for a cell at the distance
`(dr, dc)` from the cell whose formula is stored.  The constants are those of the binding where the table has the node, otherwise the
stored ones. -/
def effective (slots : Nat → Option Nat) (vals : List V) (dr dc : Int) : Fm (Nat × V) → Option (Fm V)
  | .lit p => some (.lit (match (slots p.1).bind fun s => vals[s]? with
    | some v => v
    | none => p.2))
  | .omitted => some .omitted
  | .ref r => (effectiveRef dr dc r).map .ref
  | .unary op e => (effective slots vals dr dc e).map (.unary op)
  | .binary op l r => do
    let l ← effective slots vals dr dc l
    let r ← effective slots vals dr dc r
    some (.binary op l r)
  | .func f args => (effectiveArgs slots vals dr dc args).map (.func f)

/-- The arguments of a function. -/
def effectiveArgs (slots : Nat → Option Nat) (vals : List V) (dr dc : Int) : List (Fm (Nat × V)) → Option (List (Fm V))
  | [] => some []
  | a :: as => do
    let a ← effective slots vals dr dc a
    let as ← effectiveArgs slots vals dr dc as
    some (a :: as)

end

/-- The constants of a formula with their nodes; without the nodes it is the formula as it was written. -/
def slotsOf (F : Fm (Nat × V)) : Nat → Option Nat := (slotMap ((lits F).map Prod.fst) 0 fun _ => none).1

mutual

/-- A change of the constants. -/
def Fm.map {W : Type} (g : V → W) : Fm V → Fm W
  | .lit v => .lit (g v)
  | .omitted => .omitted
  | .ref r => .ref r
  | .unary op e => .unary op (e.map g)
  | .binary op l r => .binary op (l.map g) (r.map g)
  | .func f args => .func f (Fm.mapArgs g args)

/-- A change of the constants. -/
def Fm.mapArgs {W : Type} (g : V → W) : List (Fm V) → List (Fm W)
  | [] => []
  | a :: as => a.map g :: Fm.mapArgs g as

end

/-- A formula without the nodes of its constants. -/
def Fm.plain (F : Fm (Nat × V)) : Fm V := F.map Prod.snd

end Verif.Template

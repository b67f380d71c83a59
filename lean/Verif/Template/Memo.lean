import Verif.Template.Shift

/-!
Evaluation of a span in groups of cells with equal parameters (property C69).

Sources: /repo/crates/formualizer-eval/src/formula_plane/span_eval.rs 223-402 (`evaluate_task`), 404-467 (`evaluate_placement_value`), 605-740
(`evaluate_memoized`, `evaluate_memo_group_value`, `push_memo_group_value`), 838-910 (`parameter_key`, `resolve_value_ref_slot`,
`instantiate_axis`); /repo/crates/formualizer-eval/src/formula_plane/placement.rs 1156-1234 (`value_ref_slot_descriptors`,
`finite_relative_cell`), 1709-1790 (`residual_relative_axes`); /repo/crates/formualizer-eval/src/formula_plane/template_canonical.rs 1002-1050
(`function_argument_slot_context`); /repo/crates/formualizer-eval/src/engine/eval.rs 15994-16004 (`record_derived_format_at`), 17172-17201
(`effective_format_id`, `get_cell_value`).

Operators, functions and the contents of the workbook are a parameter (`World`); a result carries a literal and a number format.  The tests
whether evaluation in groups pays off (sampling, the greatest number of groups) only decide which of the two ways is taken; the models of both
ways are given here.  Cancellation and threads are left out: the groups are evaluated in any order.
-/

namespace Verif.Template

variable {V W L A F E : Type}

/-! ### Results of formulas -/

/-- What a function or the operator `:` is given: a result, nothing, or a reference. -/
inductive Arg (W : Type) where
  | val (v : W)
  | omitted
  | ref (r : Ref)

/-- The contents of the workbook, the operators and the functions.  `V` are constants, `W` results. -/
structure World (V W : Type) where
  const : V → W
  empty : W
  cell : Option Text → Nat → Nat → W
  area : Ref → W
  unary : Text → W → W
  binary : Text → W → W → W
  range : Arg W → Arg W → W
  fn : Fn → List (Arg W) → W

/-- The value of a reference. -/
def World.value (w : World V W) : Ref → W
  | .cell s r c _ _ => w.cell s r c
  | r => w.area r

mutual

/-- interpreter.rs 585-640: the result of a formula. -/
def World.eval (w : World V W) : Fm V → W
  | .lit v => w.const v
  | .omitted => w.empty
  | .ref r => w.value r
  | .unary op e => w.unary op (w.eval e)
  | .binary op l r => if op = [':'] then w.range (w.arg l) (w.arg r) else w.binary op (w.eval l) (w.eval r)
  | .func f args => w.fn f (w.args args)

/-- traits.rs, `ArgumentHandle`: a formula as an argument. -/
def World.arg (w : World V W) : Fm V → Arg W
  | .ref r => .ref r
  | .omitted => .omitted
  | .lit v => .val (w.const v)
  | .unary op e => .val (w.unary op (w.eval e))
  | .binary op l r => .val (if op = [':'] then w.range (w.arg l) (w.arg r) else w.binary op (w.eval l) (w.eval r))
  | .func f args => .val (w.fn f (w.args args))

/-- The arguments of a function. -/
def World.args (w : World V W) : List (Fm V) → List (Arg W)
  | [] => []
  | a :: as => w.arg a :: w.args as

end

/-! ### The parameters of a cell -/

/-- Whether an axis is relative. -/
def Axis.isRel : Axis → Bool
  | .rel _ => true
  | _ => false

/-- Whether an axis is a place. -/
def Axis.isPlace : Axis → Bool
  | .rel _ => true
  | .abs _ => true
  | _ => false

/-- placement.rs 1217-1234, `finite_relative_cell`. -/
def CRef.finiteRel : CRef → Bool
  | .cell _ r c => r.isPlace && c.isPlace && (r.isRel || c.isRel)
  | _ => false

/-- placement.rs 1162-1180, 1735-1753: whether the value of a reference is a parameter.  `byValue f i` is `function_argument_slot_context`
(template_canonical.rs 1002-1050): whether it makes the argument `i` of `f` a value or a criterion. -/
def captured (byValue : Fn → Nat → Bool) (ctx : Ctx) (r : CRef) : Bool :=
  (match ctx with
  | .value => true
  | .reference => false
  | .arg f i => byValue f i) && r.finiteRel

mutual

/-- placement.rs 1156-1215, `value_ref_slot_descriptors`. -/
def valueSlots (byValue : Fn → Nat → Bool) : CExpr V → List CRef
  | .lit _ => []
  | .omitted => []
  | .ref ctx r => if captured byValue ctx r then [r] else []
  | .unary _ e => valueSlots byValue e
  | .binary _ l r => valueSlots byValue l ++ valueSlots byValue r
  | .func _ args => valueSlotsArgs byValue args

/-- The arguments of a function. -/
def valueSlotsArgs (byValue : Fn → Nat → Bool) : List (CExpr V) → List CRef
  | [] => []
  | a :: as => valueSlots byValue a ++ valueSlotsArgs byValue as

end

/-- placement.rs 1710-1733, `reference_axes`. -/
def CRef.relAxes : CRef → Bool × Bool
  | .cell _ r c => (r.isRel, c.isRel)
  | .range _ sr sc er ec => (sr.isRel || er.isRel, sc.isRel || ec.isRel)
  | .named _ => (false, false)

mutual

/-- placement.rs 1709-1790, `residual_relative_axes`. -/
def residual (byValue : Fn → Nat → Bool) : CExpr V → Bool × Bool
  | .lit _ => (false, false)
  | .omitted => (false, false)
  | .ref ctx r => if captured byValue ctx r then (false, false) else r.relAxes
  | .unary _ e => residual byValue e
  | .binary _ l r => ((residual byValue l).1 || (residual byValue r).1, (residual byValue l).2 || (residual byValue r).2)
  | .func _ args => residualArgs byValue args

/-- The arguments of a function. -/
def residualArgs (byValue : Fn → Nat → Bool) : List (CExpr V) → Bool × Bool
  | [] => (false, false)
  | a :: as => ((residual byValue a).1 || (residualArgs byValue as).1, (residual byValue a).2 || (residualArgs byValue as).2)

end

/-- span_eval.rs 901-910, `instantiate_axis`. -/
def Axis.at (axis : Axis) (pos : Nat) : Option Nat :=
  match axis with
  | .rel o => if 0 ≤ (pos : Int) + 1 + o ∧ (pos : Int) + 1 + o ≤ 2 ^ 32 - 1 then some ((pos : Int) + 1 + o).toNat else none
  | .abs i => some i
  | _ => none

/-- span_eval.rs 874-892, `resolve_value_ref_slot`. -/
def World.slot (w : World V W) (row col : Nat) : CRef → Option W
  | .cell s r c => do
    let r ← r.at row
    let c ← c.at col
    some (w.cell s r c)
  | _ => none

/-- span_eval.rs 872-874: the parameters of a cell that are values of references. -/
def World.slots (w : World V W) (row col : Nat) : List CRef → Option (List W)
  | [] => some []
  | p :: ps => do
    let v ← w.slot row col p
    let vs ← w.slots row col ps
    some (v :: vs)

/-- The parts of a key (`ParameterAtom`): a constant or a value, or a distance. -/
inductive Atom (V L : Type) where
  | const (v : V)
  | value (l : L)
  | row (d : Int)
  | col (d : Int)
deriving DecidableEq

/-- A span that is evaluated: the stored formula with its cell, the table of constants, the references whose values are parameters, and the
axes of the others. -/
structure Task (V : Type) where
  template : Fm (Nat × V)
  originRow : Nat
  originCol : Nat
  slots : Nat → Option Nat
  values : List CRef
  restRow : Bool
  restCol : Bool
  constsAt : Nat → Nat → Option (List V)

/-- The parameters that are worked out when a span is made. -/
def Task.fresh (byValue : Fn → Nat → Bool) (template : Fm (Nat × V)) (originRow originCol : Nat) (constsAt : Nat → Nat → Option (List V)) : Task V where
  template := template
  originRow := originRow
  originCol := originCol
  slots := slotsOf template
  values := valueSlots byValue (canon originRow originCol .value template.plain)
  restRow := (residual byValue (canon originRow originCol .value template.plain)).1
  restCol := (residual byValue (canon originRow originCol .value template.plain)).2
  constsAt := constsAt

/-- span_eval.rs 838-870, `parameter_key`; `literal` takes the literal of a result. -/
def Task.key (t : Task V) (w : World V W) (literal : W → L) (row col : Nat) : Option (List (Atom V L)) := do
  let consts ← t.constsAt row col
  let vals ← w.slots row col t.values
  some (consts.map Atom.const ++ vals.map (fun v => Atom.value (literal v)) ++
    (if t.restRow then [Atom.row ((row : Int) + 1 - t.originRow)] else []) ++ (if t.restCol then [Atom.col ((col : Int) + 1 - t.originCol)] else []))

/-- span_eval.rs 404-467, `evaluate_placement_value`: the result of a cell; `none` is an error of the reading or of a reference. -/
def Task.result (t : Task V) (w : World V W) (row col : Nat) : Option W := do
  let vals ← t.constsAt row col
  let f ← effective t.slots vals ((row : Int) + 1 - t.originRow) ((col : Int) + 1 - t.originCol) t.template
  some (w.eval f)

/-! ### Groups -/

/-- A cell. -/
abbrev Place := Nat × Nat

/-- span_eval.rs, `MemoGroup`. -/
structure Group (K : Type) where
  key : K
  first : Place
  places : List Place

/-- span_eval.rs 637-644: a cell is put into the group with its key. -/
def insertGroup {K : Type} [DecidableEq K] (k : K) (p : Place) : List (Group K) → List (Group K)
  | [] => [⟨k, p, [p]⟩]
  | g :: gs => if g.key = k then { g with places := g.places ++ [p] } :: gs else g :: insertGroup k p gs

/-- span_eval.rs 624-650: all cells are put into groups. -/
def groups {K : Type} [DecidableEq K] (key : Place → Option K) : List Place → List (Group K) → Option (List (Group K))
  | [], gs => some gs
  | p :: ps, gs => do
    let k ← key p
    groups key ps (insertGroup k p gs)

/-- What an evaluation writes: values, and formats. -/
structure Writes (L : Type) where
  values : List (Place × L)
  formats : List (Place × Option Nat)

/-- span_eval.rs 741-765, 682-740: the groups in some order; the format is recorded for the first cell of each group only. -/
def writeGroups {K : Type} (result : Place → Option W) (literal : W → L) (format : W → Option Nat) : List (Group K) → Option (Writes L)
  | [] => some ⟨[], []⟩
  | g :: gs => do
    let v ← result g.first
    let rest ← writeGroups result literal format gs
    some ⟨g.places.map (fun p => (p, literal v)) ++ rest.values, (g.first, format v) :: rest.formats⟩

/-- span_eval.rs 469-497, `evaluate_per_placement_sequential`: each cell on its own. -/
def writeEach (result : Place → Option W) (literal : W → L) (format : W → Option Nat) : List Place → Option (Writes L)
  | [] => some ⟨[], []⟩
  | p :: ps => do
    let v ← result p
    let rest ← writeEach result literal format ps
    some ⟨(p, literal v) :: rest.values, (p, format v) :: rest.formats⟩

/-- span_eval.rs 266-320: a span whose cells have one value; `v` is the result of the stored formula. -/
def writeOne (v : W) (literal : W → L) (format : W → Option Nat) (ps : List Place) : Writes L :=
  match ps with
  | [] => ⟨[], []⟩
  | p :: _ => ⟨ps.map fun p => (p, literal v), [(p, format v)]⟩

/-! ### What is read -/

/-- Values and derived formats of the cells of a sheet. -/
structure Sheet (L : Type) where
  value : Place → Option L
  derived : Place → Option Nat

/-- The last entry for a cell. -/
def lastFor {B : Type} (p : Place) (l : List (Place × B)) : Option B := (l.reverse.find? fun x => x.1 = p).map Prod.snd

/-- eval.rs 15994-16004, `record_derived_format_at`, and the writing of the values; the general format has the number 0. -/
def Sheet.apply (s : Sheet L) (x : Writes L) : Sheet L where
  value p := (lastFor p x.values).or (s.value p)
  derived p :=
    match lastFor p x.formats with
    | some f => f.filter fun n => n ≠ 0
    | none => s.derived p

/-- eval.rs 17172-17201, `get_cell_value`, for cells with no format of their own; `egress` makes dates of numbers with a format for dates. -/
def Sheet.read (egress : L → Option Nat → L) (s : Sheet L) (p : Place) : Option L := (s.value p).map fun v => egress v (s.derived p)

end Verif.Template

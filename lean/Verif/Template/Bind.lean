/-
The constants of the cells of a span (property C67).

Sources: /repo/crates/formualizer-eval/src/formula_plane/placement.rs 958-1068 (`prepare_family_placement`), 1236-1340
(`build_span_binding_set`), 1342-1526 (`detect_affine_literal_encoding` and its parts), 1780-1800 (`literal_binding_key`), 1853-1952
(`detect_domain`, `domain_origin`, `is_contiguous`); /repo/crates/formualizer-eval/src/formula_plane/runtime.rs 62-228, 284-395
(`PlacementDomain`, its iterator and `ordinal_of`), 456-617 (`LiteralBindingEncoding`, `literal_bindings_for_placement`,
`affine_bindings`, `affine_rect_bindings`, `apply_integer_affine_step`);
/repo/crates/formualizer-eval/src/formula_plane/span_eval.rs 404-425 (`evaluate_placement_value`).

Left out: the sheet (all cells of a span are in one), the limit on the size of the table of constants, the dates of the reads of the
span, constants that are dates, times or durations (no formula text has them).  The ways to refuse a span are one value `none`: the
cells then keep their own formulas.  Numbers of rows and columns are natural numbers; the product in `ordinal_of` is not cut to 32
bits (a span of 2³² cells or more).
-/
import Verif.Template.Effective

namespace Verif.Template

/-- Floating-point numbers (those a constant can be: no NaN and no negative zero) and errors: the operations that are used on them. -/
structure Num (F E : Type) where
  /-- runtime.rs 616-625, `f64_to_exact_i64`. -/
  exact : F → Option Int
  /-- `as f64`. -/
  ofInt : Int → F
  /-- `as i64`. -/
  toInt : F → Int
  /-- `==`. -/
  same : F → F → Bool
  /-- `==` of errors. -/
  sameErr : E → E → Bool
  /-- `{:016x}` of `to_bits`. -/
  bits : F → Text
  /-- `{:?}` of an error. -/
  dbg : E → Text

/-- A constant. -/
inductive Const (F E : Type) where
  | int (n : Int)
  | num (x : F)
  | text (s : Text)
  | bool (b : Bool)
  | error (e : E)
  | empty
  | pending
deriving DecidableEq

variable {F E : Type}

/-- template_canonical.rs 162-174, `LiteralKind`. -/
def Const.kind : Const F E → Nat
  | .int _ => 0
  | .num _ => 1
  | .text _ => 2
  | .bool _ => 3
  | .error _ => 4
  | .empty => 5
  | .pending => 6

/-! ### Domains -/

/-- runtime.rs 62-84, `PlacementDomain`. -/
inductive Domain where
  | rowRun (rowStart rowEnd col : Nat)
  | colRun (row colStart colEnd : Nat)
  | rect (rowStart rowEnd colStart colEnd : Nat)

/-- runtime.rs 284-293, `PlacementDomainIter`.  The mode is kept apart. -/
structure Iter where
  row : Nat
  rowEnd : Nat
  col : Nat
  colStart : Nat
  colEnd : Nat
  done : Bool

/-- runtime.rs 302-345, `PlacementDomainIter::new`. -/
def Iter.new : Domain → Iter
  | .rowRun r0 r1 c => ⟨r0, r1, c, c, c, decide (r0 > r1)⟩
  | .colRun r c0 c1 => ⟨r, r, c0, c0, c1, decide (c0 > c1)⟩
  | .rect r0 r1 c0 c1 => ⟨r0, r1, c0, c0, c1, decide (r0 > r1) || decide (c0 > c1)⟩

/-- runtime.rs 361-394, `next`. -/
def Iter.next (d : Domain) (i : Iter) : Option ((Nat × Nat) × Iter) :=
  if i.done then none
  else
    some ((i.row, i.col), match d with
      | .rowRun .. => if i.row = i.rowEnd then { i with done := true } else { i with row := i.row + 1 }
      | .colRun .. => if i.col = i.colEnd then { i with done := true } else { i with col := i.col + 1 }
      | .rect .. =>
        if i.col < i.colEnd then { i with col := i.col + 1 }
        else if i.row < i.rowEnd then
          { i with
            row := i.row + 1
            col := i.colStart }
        else { i with done := true })

/-- All items of the iterator; the first argument bounds their number. -/
def Iter.collect (d : Domain) : Nat → Iter → List (Nat × Nat)
  | 0, _ => []
  | n + 1, i =>
    match i.next d with
    | none => []
    | some (c, i) => c :: Iter.collect d n i

/-- runtime.rs 124-141, `cell_count`. -/
def Domain.count : Domain → Nat
  | .rowRun r0 r1 _ => r1 - r0 + 1
  | .colRun _ c0 c1 => c1 - c0 + 1
  | .rect r0 r1 c0 c1 => (r1 - r0 + 1) * (c1 - c0 + 1)

/-- runtime.rs 234-236, `iter`. -/
def Domain.iter (d : Domain) : List (Nat × Nat) := Iter.collect d d.count (Iter.new d)

/-- runtime.rs 173-228, `ordinal_of`. -/
def Domain.ordinalOf (d : Domain) (row col : Nat) : Option Nat :=
  match d with
  | .rowRun r0 r1 c => if col = c ∧ row ≥ r0 ∧ row ≤ r1 then some (row - r0) else none
  | .colRun r c0 c1 => if row = r ∧ col ≥ c0 ∧ col ≤ c1 then some (col - c0) else none
  | .rect r0 r1 c0 c1 => if row ≥ r0 ∧ row ≤ r1 ∧ col ≥ c0 ∧ col ≤ c1 then some ((row - r0) * (c1 - c0 + 1) + (col - c0)) else none

/-- placement.rs 1925-1946, `domain_origin`. -/
def Domain.origin : Domain → Nat × Nat
  | .rowRun r0 _ c => (r0, c)
  | .colRun r c0 _ => (r, c0)
  | .rect r0 _ c0 _ => (r0, c0)

/-- placement.rs 1948-1952, `is_contiguous`. -/
def contiguous : List Nat → Bool
  | [] => true
  | [_] => true
  | a :: b :: l => decide (a + 1 = b) && contiguous (b :: l)

/-- A number put into an ordered list. -/
def putIn (a : Nat) : List Nat → List Nat
  | [] => [a]
  | b :: l => if a ≤ b then a :: b :: l else b :: putIn a l

/-- `sort_unstable`: the numbers in order. -/
def sorted (l : List Nat) : List Nat := l.foldr putIn []

/-- The distinct numbers of a list in order (`BTreeSet`). -/
def distinct (l : List Nat) : List Nat := sorted l.eraseDups

/-- placement.rs 1853-1923, `detect_domain`, for the cells of the candidates. -/
def detectDomain (coords : List (Nat × Nat)) : Option Domain :=
  if coords.length < 2 then none
  else if ¬coords.Nodup then none
  else
    match coords with
    | [] => none
    | first :: _ =>
      if coords.all (fun c => c.2 == first.2) then
        let rows := sorted (coords.map Prod.fst)
        if contiguous rows then some (.rowRun (rows.head?.getD 0) (rows.getLast?.getD 0) first.2) else none
      else if coords.all (fun c => c.1 == first.1) then
        let cols := sorted (coords.map Prod.snd)
        if contiguous cols then some (.colRun first.1 (cols.head?.getD 0) (cols.getLast?.getD 0)) else none
      else
        let rows := distinct (coords.map Prod.fst)
        let cols := distinct (coords.map Prod.snd)
        if ¬contiguous rows ∨ ¬contiguous cols then none
        else if rows.length * cols.length ≠ coords.length then none
        else some (.rect (rows.head?.getD 0) (rows.getLast?.getD 0) (cols.head?.getD 0) (cols.getLast?.getD 0))

/-! ### The table of constants -/

/-- A 64-bit signed number. -/
def I64 (n : Int) : Prop := -2 ^ 63 ≤ n ∧ n ≤ 2 ^ 63 - 1

instance (n : Int) : Decidable (I64 n) := by unfold I64; infer_instance

/-- The result of a checked operation. -/
def chk (n : Int) : Option Int := if I64 n then some n else none

/-- placement.rs 1784-1797: one constant in `literal_binding_key`. -/
def constKey (N : Num F E) : Const F E → Text
  | .int n => ['i', ':'] ++ decInt n ++ [';']
  | .num x => ['n', ':'] ++ N.bits x ++ [';']
  | .text s => ['t', ':'] ++ stringKey s ++ [';']
  | .bool true => ['b', ':', '1', ';']
  | .bool false => ['b', ':', '0', ';']
  | .error e => ['e', ':'] ++ N.dbg e ++ [';']
  | .empty => ['e', 'm', 'p', 't', 'y', ';']
  | .pending => ['p', 'e', 'n', 'd', 'i', 'n', 'g', ';']

/-- placement.rs 1796-1815, `literal_binding_key`. -/
def bindingKey (N : Num F E) (b : List (Const F E)) : Text := b.flatMap (constKey N)

/-- The constants of each cell. -/
abbrev By (F E : Type) := Nat × Nat → Option (List (Const F E))

/-- placement.rs 1263-1279: the distinct lists of constants, the numbers of the keys, and the number of the list of each cell. -/
def dictionary (N : Num F E) (byCell : By F E) : List (Nat × Nat) → List (List (Const F E)) → (Text → Option Nat) → List Nat →
    Option (List (List (Const F E)) × List Nat)
  | [], uniq, _, ids => some (uniq, ids)
  | c :: cs, uniq, keys, ids =>
    match byCell c with
    | none => none
    | some b =>
      match keys (bindingKey N b) with
      | some id => dictionary N byCell cs uniq keys (ids ++ [id])
      | none => dictionary N byCell cs (uniq ++ [b]) (fun k => if k = bindingKey N b then some uniq.length else keys k) (ids ++ [uniq.length])

/-- runtime.rs 456-477, `LiteralBindingEncoding`, with the tables that belong to it.  `Broadcast` is only built elsewhere. -/
inductive Encoding (F E : Type) where
  | dictionary (uniq : List (List (Const F E))) (ids : List Nat)
  | byRow (originRow : Nat) (base : List (Const F E)) (steps : List Int)
  | byCol (originCol : Nat) (base : List (Const F E)) (steps : List Int)
  | affineRect (originRow originCol : Nat) (base : List (Const F E)) (rowSteps colSteps : List Int)

/-- placement.rs 1397-1403, `literal_as_exact_i64`. -/
def exactOf (N : Num F E) : Const F E → Option Int
  | .int n => some n
  | .num x => N.exact x
  | _ => none

/-- placement.rs 1405-1414, `exact_i64_to_like`. -/
def toLike (N : Num F E) (n : Int) : Const F E → Option (Const F E)
  | .int _ => some (.int n)
  | .num _ => if N.toInt (N.ofInt n) = n then some (.num (N.ofInt n)) else none
  | _ => none

/-- placement.rs 1416-1431, `affine_step_between`. -/
def stepBetween (N : Num F E) (base value : Const F E) (delta : Int) : Option (Option Int) := do
  let b ← exactOf N base
  let v ← exactOf N value
  let diff ← chk (v - b)
  if delta = 0 then if diff = 0 then some none else none
  else if Int.tmod diff delta ≠ 0 then none
  else some (some (Int.tdiv diff delta))

/-- placement.rs 1449-1455: a step that was found, next to one that was found before. -/
def addStep (s : Option Int) : Option Int → Option (Option Int)
  | none => some s
  | some step =>
    match s with
    | some existing => if existing ≠ step then none else some s
    | none => some (some step)

/-- placement.rs 1447-1456: the constants of one cell against those of the origin. -/
def addSteps (N : Num F E) (delta : Int) : List (Const F E) → List (Const F E) → List (Option Int) → Option (List (Option Int))
  | b :: bs, v :: vs, s :: ss => do
    let step ← stepBetween N b v delta
    let s' ← addStep s step
    let rest ← addSteps N delta bs vs ss
    some (s' :: rest)
  | _, _, ss => some ss

/-- placement.rs 1433-1459, `detect_affine_steps`. -/
def detectSteps (N : Num F E) (byCell : By F E) (base : List (Const F E)) (delta : Nat × Nat → Int) :
    List (Nat × Nat) → List (Option Int) → Option (List Int)
  | [], steps => some (steps.map fun s => s.getD 0)
  | c :: cs, steps => do
    let b ← byCell c
    if b.length ≠ base.length then none
    else do
      let steps ← addSteps N (delta c) base b steps
      detectSteps N byCell base delta cs steps

/-- placement.rs 1489-1495: the steps of a rectangle. -/
def rectSteps (N : Num F E) : List (Const F E) → List (Const F E) → Option (List Int)
  | b :: bs, v :: vs => do
    let s ← stepBetween N b v 1
    let s ← s
    let rest ← rectSteps N bs vs
    some (s :: rest)
  | _, _ => some []

/-- `==` of constants. -/
def constEq (N : Num F E) : Const F E → Const F E → Bool
  | .int m, .int n => decide (m = n)
  | .num x, .num y => N.same x y
  | _, _ => false

/-- placement.rs 1503-1518: the constants of one cell of a rectangle. -/
def rectOk (N : Num F E) (dr dc : Int) : List (Const F E) → List Int → List Int → List (Const F E) → Option Unit
  | b :: bs, r :: rs, c :: cs, v :: vs => do
    let e ← exactOf N b
    let p ← chk (r * dr)
    let e ← chk (e + p)
    let p ← chk (c * dc)
    let e ← chk (e + p)
    let expected ← toLike N e b
    if constEq N expected v then rectOk N dr dc bs rs cs vs else none
  | _, _, _, _ => some ()

/-- placement.rs 1497-1519: all cells of a rectangle. -/
def rectAll (N : Num F E) (byCell : By F E) (origin : Nat × Nat) (base : List (Const F E)) (rs cs : List Int) : List (Nat × Nat) → Option Unit
  | [] => some ()
  | c :: cells => do
    let b ← byCell c
    if b.length ≠ base.length then none
    else do
      rectOk N ((c.1 : Int) - origin.1) ((c.2 : Int) - origin.2) base rs cs b
      rectAll N byCell origin base rs cs cells

/-- placement.rs 1376-1382, `is_affine_numeric_literal`. -/
def isNumeric (N : Num F E) : Const F E → Bool
  | .int _ => true
  | .num x => (N.exact x).isSome
  | _ => false

/-- placement.rs 1475-1479: the constants of the cell to the right of the origin. -/
def rightOf (byCell : By F E) (base : List (Const F E)) (r0 c0 c1 : Nat) : Option (List (Const F E)) :=
  if c0 < c1 then byCell (r0, c0 + 1) else some base

/-- placement.rs 1342-1374, 1461-1526, `detect_affine_literal_encoding` and `detect_affine_rect_encoding`. -/
def detectAffine (N : Num F E) (d : Domain) (byCell : By F E) : Option (Encoding F E) := do
  let base ← byCell d.origin
  if base.isEmpty ∨ ¬base.all (isNumeric N) then none
  else
    match d with
    | .rowRun r0 _ _ => do
      let steps ← detectSteps N byCell base (fun c => (c.1 : Int) - r0) d.iter (base.map fun _ => none)
      some (.byRow r0 base steps)
    | .colRun _ c0 _ => do
      let steps ← detectSteps N byCell base (fun c => (c.2 : Int) - c0) d.iter (base.map fun _ => none)
      some (.byCol c0 base steps)
    | .rect r0 _ c0 c1 => do
      let right ← rightOf byCell base r0 c0 c1
      let down := (byCell (r0 + 1, c0)).getD base
      if right.length ≠ base.length ∨ down.length ≠ base.length then none
      else do
        let rs ← rectSteps N base down
        let cs ← rectSteps N base right
        rectAll N byCell (r0, c0) base rs cs d.iter
        some (.affineRect r0 c0 base rs cs)

/-! ### Reading the constants back -/

/-- runtime.rs 597-614, `apply_integer_affine_step`. -/
def applyStep (N : Num F E) (value : Const F E) (step delta extra : Int) : Option (Const F E) := do
  let p ← chk (step * delta)
  let offset ← chk (p + extra)
  match value with
  | .int b => do
    let v ← chk (b + offset)
    some (.int v)
  | .num x => do
    let b ← N.exact x
    let v ← chk (b + offset)
    if N.toInt (N.ofInt v) = v then some (.num (N.ofInt v)) else none
  | _ => none

/-- runtime.rs 568-576, `affine_bindings`, after the test of the lengths. -/
def affineVals (N : Num F E) (delta : Int) : List (Const F E) → List Int → Option (List (Const F E))
  | b :: bs, s :: ss => do
    let v ← applyStep N b s delta 0
    let rest ← affineVals N delta bs ss
    some (v :: rest)
  | _, _ => some []

/-- runtime.rs 578-595, `affine_rect_bindings`, after the test of the lengths. -/
def rectVals (N : Num F E) (dr dc : Int) : List (Const F E) → List Int → List Int → Option (List (Const F E))
  | b :: bs, r :: rs, c :: cs => do
    let extra ← chk (c * dc)
    let v ← applyStep N b r dr extra
    let rest ← rectVals N dr dc bs rs cs
    some (v :: rest)
  | _, _, _ => some []

/-- runtime.rs 510-556, `literal_bindings_for_placement`. -/
def Encoding.valuesAt (N : Num F E) (d : Domain) (row col : Nat) : Encoding F E → Option (List (Const F E))
  | .dictionary uniq ids => do
    let o ← d.ordinalOf row col
    let id ← ids[o]?
    uniq[id]?
  | .byRow r0 base steps => if base.length ≠ steps.length then none else affineVals N ((row : Int) - r0) base steps
  | .byCol c0 base steps => if base.length ≠ steps.length then none else affineVals N ((col : Int) - c0) base steps
  | .affineRect r0 c0 base rs cs =>
    if base.length ≠ rs.length ∨ base.length ≠ cs.length then none else rectVals N ((row : Int) - r0) ((col : Int) - c0) base rs cs

/-! ### Spans -/

/-- placement.rs, `FormulaPlacementCandidate` with its analysis: a cell (rows and columns from zero), its formula, the labels of its key. -/
structure Cand (F E : Type) where
  row : Nat
  col : Nat
  formula : Fm (Nat × Const F E)
  labels : Text

/-- The constants of a candidate (`literal_bindings`). -/
def Cand.consts (c : Cand F E) : List (Const F E) := lits c.formula.plain

/-- The text that makes up the key of a candidate; cells are counted from one there. -/
def Cand.key (c : Cand F E) : Text := payload (canon (c.row + 1) (c.col + 1) .value c.formula.plain) c.labels

/-- placement.rs 1251-1257: the constants of each cell. -/
def byCell (cands : List (Cand F E)) : By F E := cands.foldl (fun m c k => if k = (c.row, c.col) then some c.consts else m k) fun _ => none

/-- dependency_summary.rs 1078-1080, `axis_is_placement_invariant`. -/
def Axis.fixed : Axis → Bool
  | .abs _ => true
  | .whole => true
  | _ => false

/-- dependency_summary.rs 54-68: a reference that is the same for all cells. -/
def CRef.fixed : CRef → Bool
  | .cell _ r c => r.fixed && c.fixed
  | .range _ sr sc er ec => sr.fixed && sc.fixed && er.fixed && ec.fixed
  | .named _ => true

mutual

/-- dependency_summary.rs 54-68, `is_constant_result`: all references are the same for all cells. -/
def CExpr.fixed {V : Type} : CExpr V → Bool
  | .lit _ => true
  | .omitted => true
  | .ref _ r => r.fixed
  | .unary _ e => e.fixed
  | .binary _ l r => l.fixed && r.fixed
  | .func _ args => CExpr.fixedArgs args

/-- All references of the arguments are the same for all cells. -/
def CExpr.fixedArgs {V : Type} : List (CExpr V) → Bool
  | [] => true
  | a :: as => a.fixed && CExpr.fixedArgs as

end

/-- `==` of constants of any kind. -/
def constSame (N : Num F E) : Const F E → Const F E → Bool
  | .int m, .int n => decide (m = n)
  | .num x, .num y => N.same x y
  | .text s, .text t => decide (s = t)
  | .bool x, .bool y => x == y
  | .error x, .error y => N.sameErr x y
  | .empty, .empty => true
  | .pending, .pending => true
  | _, _ => false

/-- `==` of lists of constants. -/
def constsSame (N : Num F E) : List (Const F E) → List (Const F E) → Bool
  | [], [] => true
  | a :: as, b :: bs => constSame N a b && constsSame N as bs
  | _, _ => false

/-- placement.rs 45. -/
def minCells : Nat := 100

/-- A span: its domain, the stored formula with its cell, the constants, and whether all its cells have one value. -/
structure Span (F E : Type) where
  domain : Domain
  template : Fm (Nat × Const F E)
  originRow : Nat
  originCol : Nat
  encoding : Encoding F E
  constant : Bool

/-- placement.rs 1007-1011: whether all cells have one value. -/
def isConstant (N : Num F E) (first : Cand F E) (cands : List (Cand F E)) : Bool :=
  (canon (first.row + 1) (first.col + 1) .value first.formula.plain).fixed && cands.all fun c => constsSame N c.consts first.consts

/-- placement.rs 445-464, 958-1068, 1236-1340, `prepare_family_placement` and `build_span_binding_set`.  Left out: the rejection of spans that
read their own cells. -/
def prepare (N : Num F E) (cands : List (Cand F E)) : Option (Span F E) := do
  let first ← cands.head?
  if ¬cands.all (fun c => c.key == first.key) then none
  else do
    let d ← detectDomain (cands.map fun c => (c.row, c.col))
    let origin ← cands.find? fun c => (c.row, c.col) == d.origin
    if isConstant N first cands = false ∧ cands.length < minCells then none
    else if ¬cands.all (fun c => c.consts.map Const.kind == first.consts.map Const.kind) then none
    else do
      let (uniq, ids) ← dictionary N (byCell cands) d.iter [] (fun _ => none) []
      some
        { domain := d
          template := origin.formula
          originRow := origin.row + 1
          originCol := origin.col + 1
          encoding := (detectAffine N d (byCell cands)).getD (.dictionary uniq ids)
          constant := isConstant N first cands }

/-- span_eval.rs 266-305, 404-425, `evaluate_task` and `evaluate_placement_value`: the formula that is computed for a cell of the span;
`none` is an error of the reading or of a reference.  A span with one value computes the stored formula as it is. -/
def Span.formulaAt (N : Num F E) (s : Span F E) (row col : Nat) : Option (Fm (Const F E)) :=
  if s.constant then some s.template.plain
  else do
  let vals ← s.encoding.valuesAt N s.domain row col
  effective (slotsOf s.template) vals ((row : Int) + 1 - s.originRow) ((col : Int) + 1 - s.originCol) s.template

end Verif.Template

/-
What the cells of a span read, and the entries of the read index.

Source: /repo/crates/formualizer-eval/src/engine/ingest_pipeline.rs, lines 768-1117 (`compute_read_projections`),
/repo/crates/formualizer-eval/src/formula_plane/placement.rs, lines 336-362 (`is_constant_projection`), 444-464
(`prepare_domain_semantics_for_family_size`) and 1828-1851 (`span_read_summary_for_domain`), and authority.rs, lines 62-115
(`rebuild_indexes`).

The formula of a span is given once, at its anchor; the cell at `p` has the formula in which the relative coordinates are
moved by the distance from the anchor to `p`.  The table of functions is a parameter: which functions are accepted, and
which context each of their arguments has.  The size limits of the promotion are left out: a span that they reject is not
a span.
-/
import Verif.Plane.ClosureProps
import Mathlib.Data.List.Nodup

namespace Verif.Plane

/-- The references of the parsed formula (`ReferenceType`).  Rows and columns count from one; `none` is a side that is
left open. -/
inductive Ref where
  | cell (sheet : Option String) (row col : Nat) (rowAbs colAbs : Bool)
  | range (sheet : Option String) (startRow startCol endRow endCol : Option Nat)
      (startRowAbs startColAbs endRowAbs endColAbs : Bool)
  | name (n : String)
  | other
deriving DecidableEq

/-- `ASTNodeType`. -/
inductive Expr where
  | lit
  | omitted
  | ref (r : Ref)
  | unary (op : String) (e : Expr)
  | binary (op : String) (l r : Expr)
  | func (name : String) (args : List Expr)
  | call
  | array

/-- `AnalyzerContext`, as far as it is told apart here. -/
inductive Ctx where
  | value | criteriaRange | criteriaExpr | other
deriving DecidableEq

/-- `NamedTarget`: coordinates count from zero. -/
inductive Target where
  | cell (sheet row col : Nat)
  | range (sheet row col sheet' row' col' : Nat)
  | other

/-- What the analysis looks up: sheets, names (as the sheet of the placement sees them), functions. -/
structure Env where
  sheetId : String → Option Nat
  name : String → Option Target
  accepted : String → Nat → Bool
  argCtx : String → Nat → Nat → Ctx

/-- ingest_pipeline.rs 775-785, `axis_projection`. -/
def axisProjection (index : Nat) (abs : Bool) (anchor : Nat) : AxisProj :=
  if abs then .abs (index - 1) else .rel ((index : Int) - anchor)

/-- ingest_pipeline.rs 787-791, `push_projection`. -/
def pushProjection (ps : List (Nat × Rule)) (x : Nat × Rule) : List (Nat × Rule) := if x ∈ ps then ps else ps ++ [x]

/-- ingest_pipeline.rs 849-919: the `Reference` node with a name. -/
def visitName (env : Env) (ps : List (Nat × Rule)) (ctx : Ctx) (inArg : Bool) (n : String) : Option (List (Nat × Rule)) :=
  match env.name n with
  | none => none
  | some (.cell sheet row col) => some (pushProjection ps (sheet, .cell (.abs row) (.abs col)))
  | some (.range sheet row col sheet' row' col') =>
    if !inArg ∨ ¬ (ctx = .value ∨ ctx = .criteriaRange) then none
    else if sheet ≠ sheet' then none
    else some (pushProjection ps (sheet, .range (.abs (min row row')) (.abs (max row row')) (.abs (min col col'))
      (.abs (max col col'))))
  | some .other => none

/-- The sheet that a reference names, or the sheet of the placement (ingest_pipeline.rs 921-930). -/
def sheetOf (env : Env) (home : Nat) : Option String → Option Nat
  | none => some home
  | some n => env.sheetId n

/-- ingest_pipeline.rs 920-1036: the other `Reference` nodes.  `ar`, `ac` are the anchor, counted from one. -/
def visitRef (env : Env) (home ar ac : Nat) (ps : List (Nat × Rule)) (ctx : Ctx) (inArg : Bool) :
    Ref → Option (List (Nat × Rule))
  | .name n => visitName env ps ctx inArg n
  | .other => none
  | .cell sheet row col rowAbs colAbs =>
    match sheetOf env home sheet with
    | none => none
    | some s => some (pushProjection ps (s, .cell (axisProjection row rowAbs ar) (axisProjection col colAbs ac)))
  | .range sheet startRow startCol endRow endCol sra sca era eca =>
    match sheetOf env home sheet with
    | none => none
    | some s =>
      if !inArg ∨ ¬ (ctx = .value ∨ ctx = .criteriaRange) then none
      else
        match startRow, startCol, endRow, endCol with
        | none, some sc, none, some ec =>
          if sca ≠ eca then none
          else some (pushProjection ps (s, .wholeCols (axisProjection sc sca ac) (axisProjection ec eca ac)))
        | some sr, some sc, some er, some ec =>
          some (pushProjection ps (s, .range (axisProjection sr sra ar) (axisProjection er era ar)
            (axisProjection sc sca ac) (axisProjection ec eca ac)))
        | _, _, _, _ => none

mutual

/-- ingest_pipeline.rs 793-1103, `visit`. -/
def visit (env : Env) (home ar ac : Nat) (ps : List (Nat × Rule)) (ctx : Ctx) (inArg : Bool) :
    Expr → Option (List (Nat × Rule))
  | .lit => if ctx = .value ∨ ctx = .criteriaExpr then some ps else none
  | .omitted => if ctx = .value ∨ ctx = .criteriaExpr then some ps else none
  | .ref r => visitRef env home ar ac ps ctx inArg r
  | .unary op e =>
    if op = "+" ∨ op = "-" ∨ op = "%" then visit env home ar ac ps ctx inArg e else none
  | .binary op l r =>
    if op ∈ ["+", "-", "*", "/", "^", "&", "=", "<>", "<", "<=", ">", ">="] then
      match visit env home ar ac ps ctx inArg l with
      | none => none
      | some ps => visit env home ar ac ps ctx inArg r
    else none
  | .func name args =>
    if env.accepted name args.length then
      match visitArgs env home ar ac ps name args.length 0 args with
      | none => none
      | some ps => if ctx = .value then some ps else none
    else none
  | .call => none
  | .array => none

/-- ingest_pipeline.rs 1075-1091: the arguments of a function, the first of them having number `i`. -/
def visitArgs (env : Env) (home ar ac : Nat) (ps : List (Nat × Rule)) (fname : String) (arity i : Nat) :
    List Expr → Option (List (Nat × Rule))
  | [] => some ps
  | e :: es =>
    match visit env home ar ac ps (env.argCtx fname arity i)
      (env.argCtx fname arity i = .value ∨ env.argCtx fname arity i = .criteriaRange) e with
    | none => none
    | some ps => visitArgs env home ar ac ps fname arity (i + 1) es

end

/-- ingest_pipeline.rs 1105-1117.  The anchor counts from zero. -/
def readProjections (env : Env) (anchor : Key) (e : Expr) : Option (List (Nat × Rule)) :=
  visit env anchor.sheet (anchor.row + 1) (anchor.col + 1) [] .value false e

/-- `SpanReadDependency` (producer.rs 558-562). -/
structure Dependency where
  read : Region
  rule : Rule
deriving DecidableEq

/-- placement.rs 1835-1845: the read regions of one projection. -/
def pushDeps (rule : Rule) (ds : List Dependency) (rs : List Region) : List Dependency :=
  rs.foldl (fun ds r => if (⟨r, rule⟩ : Dependency) ∈ ds then ds else ds ++ [⟨r, rule⟩]) ds

/-- placement.rs 1828-1851, `span_read_summary_for_domain`. -/
def readSummary (result : Region) (ds : List Dependency) : List (Nat × Rule) → Option (List Dependency)
  | [] => some ds
  | x :: xs =>
    match x.2.readRegions x.1 result with
    | none => none
    | some rs => readSummary result (pushDeps x.2 ds rs) xs

/-- placement.rs 444-464, `prepare_domain_semantics_for_family_size`, without the size limit: a span must not read
itself. -/
def prepareDomain (result : Region) (ps : List (Nat × Rule)) : Option (List Dependency) :=
  match readSummary result [] ps with
  | none => none
  | some ds => if ds.any (fun d => d.read.intersects result) then none else some ds

/-- A span: the producer, the cell that holds the formula as written, the cells that have it, the formula. -/
structure Span (P : Type) where
  id : P
  anchor : Key
  result : Region
  formula : Expr

/-- The read dependencies of a span; `none` means that the formulas are not made into a span. -/
def Span.deps {P : Type} (env : Env) (s : Span P) : Option (List Dependency) :=
  match readProjections env s.anchor s.formula with
  | none => none
  | some ps => prepareDomain s.result ps

/-- authority.rs 62-115, `rebuild_indexes`: the entries of the read index. -/
def readEntries {P : Type} (env : Nat → Env) (spans : List (Span P)) : List (Entry P) :=
  spans.flatMap fun s => (((s.deps (env s.anchor.sheet)).getD []).map fun d => ⟨s.id, d.read, s.result, d.rule⟩)

/-- The result regions, by producer (`producer_result_region`). -/
def resultOf {P : Type} [DecidableEq P] (spans : List (Span P)) (c : P) : Option Region :=
  (spans.find? fun s => s.id = c).map Span.result

/-- placement.rs 360-362, `axis_projection_is_absolute`. -/
def isAbsolute : AxisProj → Bool
  | .abs _ => true
  | .rel _ => false

/-- placement.rs 336-358, `is_constant_projection`. -/
def isConstant : Rule → Bool
  | .cell r c => isAbsolute r && isAbsolute c
  | .range a b c d => isAbsolute a && isAbsolute b && isAbsolute c && isAbsolute d
  | .wholeCols c d => isAbsolute c && isAbsolute d
  | .wholeResult => false

/-! ### The specification -/

mutual

/-- The references that occur in a formula. -/
def Expr.refs : Expr → List Ref
  | .ref r => [r]
  | .unary _ e => e.refs
  | .binary _ l r => l.refs ++ r.refs
  | .func _ args => Expr.refsList args
  | _ => []

def Expr.refsList : List Expr → List Ref
  | [] => []
  | e :: es => e.refs ++ Expr.refsList es

end

/-- The coordinate, counted from zero, that a written coordinate has in the formula of a cell at `p` when it is `i`,
counted from one, in the formula of a cell at `a`. -/
def moved (i : Nat) (abs : Bool) (a p : Nat) : Int := if abs then (i : Int) - 1 else (i : Int) - 1 + ((p : Int) - a)

/-- On one axis: between the two ends, an end that is left open not limiting. -/
def Covers (s e : Option Nat) (sa ea : Bool) (a p k : Nat) : Prop :=
  match s, e with
  | some s, some e => Between (moved s sa a p) (moved e ea a p) k
  | some s, none => moved s sa a p ≤ k
  | none, some e => (k : Int) ≤ moved e ea a p
  | none, none => True

/-- The reference, written in the formula of the cell at `anchor`, denotes (in the formula moved to `p`) a set of cells
with `k` among them. -/
def Ref.Denotes (env : Env) (anchor : Key) (p k : Key) : Ref → Prop
  | .cell sheet row col ra ca => sheetOf env anchor.sheet sheet = some k.sheet ∧
      (k.row : Int) = moved row ra anchor.row p.row ∧ (k.col : Int) = moved col ca anchor.col p.col
  | .range sheet sr sc er ec sra sca era eca => sheetOf env anchor.sheet sheet = some k.sheet ∧
      Covers sr er sra era anchor.row p.row k.row ∧ Covers sc ec sca eca anchor.col p.col k.col
  | .name n =>
    match env.name n with
    | some (.cell sheet row col) => k = ⟨sheet, row, col⟩
    | some (.range sheet row col sheet' row' col') => k.sheet = sheet ∧ k.sheet = sheet' ∧ Between row row' k.row ∧
        Between col col' k.col
    | _ => False
  | .other => False

/-- Written coordinates count from one and are `u32`. -/
def Ref.Written : Ref → Prop
  | .cell _ row col _ _ => (1 ≤ row ∧ row ≤ u32Max) ∧ (1 ≤ col ∧ col ≤ u32Max)
  | .range _ sr sc er ec _ _ _ _ => (∀ i, sr = some i → 1 ≤ i ∧ i ≤ u32Max) ∧ (∀ i, sc = some i → 1 ≤ i ∧ i ≤ u32Max) ∧
      (∀ i, er = some i → 1 ≤ i ∧ i ≤ u32Max) ∧ ∀ i, ec = some i → 1 ≤ i ∧ i ≤ u32Max
  | _ => True

/-- The reference is to whole columns, such as `A:C`. -/
def Ref.WholeCols : Ref → Prop
  | .range _ none (some _) none (some _) _ _ _ _ => True
  | _ => False

/-- The cells that the names stand for have `u32` coordinates. -/
def Env.Ok (env : Env) : Prop := ∀ n,
  match env.name n with
  | some (.cell _ row col) => row ≤ u32Max ∧ col ≤ u32Max
  | some (.range _ row col _ row' col') => row ≤ u32Max ∧ col ≤ u32Max ∧ row' ≤ u32Max ∧ col' ≤ u32Max
  | _ => True

/-- The cell `p` of the span reads `k`. -/
def Span.Reads {P : Type} (env : Env) (s : Span P) (p k : Key) : Prop :=
  ∃ r ∈ s.formula.refs, r.Denotes env s.anchor p k

/-- The cells of the spans that must be recomputed when the regions `changed` change. -/
inductive Stale {P : Type} (env : Nat → Env) (spans : List (Span P)) (changed : List Region) : P → Key → Prop where
  | direct {s : Span P} {r : Region} {p k : Key} : s ∈ spans → s.result.Has p → r ∈ changed → k.Fits → r.Has k →
      s.Reads (env s.anchor.sheet) p k → Stale env spans changed s.id p
  | step {s : Span P} {c : P} {p k : Key} : Stale env spans changed c k → k.Fits → s ∈ spans → s.result.Has p →
      s.Reads (env s.anchor.sheet) p k → Stale env spans changed s.id p

end Verif.Plane

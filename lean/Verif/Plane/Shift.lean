/-
Spans of formulas when rows or columns are inserted or deleted.

Source: /repo/crates/formualizer-eval/src/formula_plane/structural_shift.rs, lines 1-560, and
/repo/crates/formualizer-eval/src/engine/eval.rs, lines 12827-14060 (`demote_spans_for_structural_op_impl`).

A span keeps three pairs of a formula and the cell it was written for: the template (shared by all spans with the same
formula up to constants), the one it shows and is demoted with (`ast_relocation`), and the one it is evaluated with (in
the binding set).  Of a formula only the references are kept.  Left out: overlays of a span, intrinsic masks (never made),
the constants of the formula, the regions marked dirty.  The domain of a span is given as its region (`Region::from_domain`).
-/
import Verif.Plane.ReadsProps
import Verif.Adjust.Model

namespace Verif.Plane.Edit

open Verif.Plane

/-- structural_shift.rs 6-28, `StructuralOp`: rows or columns, deleted or inserted. -/
structure Op where
  rows : Bool
  del : Bool
  sheet : Nat
  at_ : Nat
  count : Nat
deriving DecidableEq

/-- structural_shift.rs 30-37, `AxisShiftCase`. -/
inductive Case where
  | otherSheet | below | above | straddles | contained
deriving DecidableEq

/-- The end of the deleted band: `start.saturating_add(count)`. -/
def Op.last (op : Op) : Nat := min u32Max (op.at_ + op.count)

/-- structural_shift.rs 107-114, `axis_shift_delta`, on the axis of the operation. -/
def Op.delta (op : Op) : Int := if op.del then -(op.count : Int) else op.count

def Op.rowDelta (op : Op) : Int := if op.rows then op.delta else 0
def Op.colDelta (op : Op) : Int := if op.rows then 0 else op.delta

/-- The range of a region on the axis of the operation. -/
def Op.axis (op : Op) (r : Region) : AxisRange := if op.rows then r.rows else r.cols

/-- structural_shift.rs 116-145, `classify_axis`. -/
def Op.classifyAxis (op : Op) (a : AxisRange) : Case :=
  if op.del then
    if a.bounds.2 < op.at_ then .below
    else if a.bounds.1 ≥ op.last then .above
    else if a.bounds.1 ≥ op.at_ ∧ a.bounds.2 < op.last then .contained
    else .straddles
  else
    if a.bounds.2 < op.at_ then .below
    else if a.bounds.1 ≥ op.at_ then .above
    else .straddles

/-- structural_shift.rs 147-156, `classify_region`. -/
def Op.classify (op : Op) (r : Region) : Case := if r.sheet ≠ op.sheet then .otherSheet else op.classifyAxis (op.axis r)

/-- The bounds that a rule has on the axis of the operation (structural_shift.rs 186-210). -/
def Op.bounds (op : Op) : Rule → List AxisProj
  | .cell r c => if op.rows then [r] else [c]
  | .range a b c d => if op.rows then [a, b] else [c, d]
  | .wholeCols c d => if op.rows then [] else [c, d]
  | .wholeResult => []

/-- structural_shift.rs 177-210, `rule_axis_bound_kinds`, first component. -/
def Op.hasRelative (op : Op) (rule : Rule) : Bool :=
  match rule with
  | .wholeResult => true
  | .wholeCols _ _ => if op.rows then true else (op.bounds rule).any fun b => !isAbsolute b
  | _ => (op.bounds rule).any fun b => !isAbsolute b

/-- structural_shift.rs 177-210, `rule_axis_bound_kinds`, second component. -/
def Op.hasAbsolute (op : Op) (rule : Rule) : Bool := (op.bounds rule).any isAbsolute

/-- structural_shift.rs 218-228, `summary_has_displaced_absolute_read`. -/
def Op.displacedAbsolute (op : Op) (deps : List Dependency) : Bool :=
  deps.any fun d => op.classify d.read = .above && op.hasAbsolute d.rule

/-- structural_shift.rs 324-338: how a bound of the formula as written (counted from zero) lies to the operation; `none`
means inside the deleted band. -/
def Op.authored (op : Op) (v : Int) : Option Bool :=
  if op.del then
    if (op.at_ : Int) ≤ v ∧ v < op.at_ + op.count then none else some (decide ((op.at_ : Int) + op.count ≤ v))
  else some (decide ((op.at_ : Int) ≤ v))

/-- structural_shift.rs 319-342 and 234-271: one bound of a rule; `displaced` is what happens to the read region. -/
def Op.boundSound (op : Op) (origin0 : Int) (displaced : Bool) : AxisProj → Bool
  | .abs _ => true
  | .rel o => decide (0 ≤ origin0 + o) && (op.authored (origin0 + o) == some displaced)

/-- structural_shift.rs 297-346, `rewrite_frame_is_sound`; `origin0` is the origin on the axis, counted from zero. -/
def Op.frameSound (op : Op) (origin0 : Int) (deps : List Dependency) : Bool :=
  deps.all fun d =>
    match op.classify d.read with
    | .below => d.rule ≠ .wholeResult && (op.bounds d.rule).all (op.boundSound origin0 false)
    | .above => d.rule ≠ .wholeResult && (op.bounds d.rule).all (op.boundSound origin0 true)
    | _ => false

/-- structural_shift.rs 39-69, `SpanShiftPlan`.  The deltas of a shift are those of the operation; those of the origin are
the same or zero. -/
inductive Plan where
  | noOp
  | shift (originMoves rewrite : Bool)
  | split
  | compact
  | demote
  | remove
deriving DecidableEq

/-- structural_shift.rs 375-466: the second half of `classify_span_for_op`, the result having been found in place.  The loop
returns early for a straddling read, whatever the flags are by then, so that its order does not matter. -/
def classifyReads (op : Op) (resultShifts : Bool) (deps : List Dependency) : Plan :=
  if deps.any fun d => op.classify d.read = .straddles || op.classify d.read = .contained then .demote
  else
    let shifting := deps.any fun d => op.classify d.read = .above && op.hasRelative d.rule
    let stationary := deps.any fun d => op.classify d.read ≠ .above && op.hasRelative d.rule
    let absolute := op.displacedAbsolute deps
    if !resultShifts then if shifting || absolute then .demote else .noOp
    else if absolute then .shift true true
    else if shifting && stationary then .demote
    else if shifting then .shift false false
    else .shift true false

/-- structural_shift.rs 348-467, `classify_span_for_op`. -/
def classifySpan (op : Op) (result : Region) (deps : List Dependency) : Plan :=
  match op.classify result with
  | .contained => .remove
  | .straddles => if op.del then .compact else .split
  | .above => classifyReads op (op.count ≠ 0) deps
  | .otherSheet => classifyReads op false deps
  | .below => classifyReads op false deps

/-! ### What is done -/

/-- A formula, by its references, and the cell (counted from zero) that it was written for. -/
structure Frame where
  origin : Key
  refs : List Ref

/-- A span.  `single`: its cells have the same constants. -/
structure Span where
  result : Region
  template : Frame
  shown : Frame
  evaluated : Frame
  deps : List Dependency
  single : Bool

/-- eval.rs 13021-13023, `checked_shift_u32`, and runtime.rs 243-245. -/
def checkedShift (v : Nat) (d : Int) : Option Nat :=
  if 0 ≤ (v : Int) + d ∧ (v : Int) + d ≤ u32Max then some ((v : Int) + d).toNat else none

/-- runtime.rs 238-284, one axis of `PlacementDomain::project_through_axis_shift`. -/
def shiftBounded (a : AxisRange) (d : Int) : Option AxisRange :=
  match a with
  | .point p => (checkedShift p d).map .point
  | .span s e =>
    match checkedShift s d, checkedShift e d with
    | some s, some e => some (.span s e)
    | _, _ => none
  | _ => none

/-- runtime.rs 238-284, `PlacementDomain::project_through_axis_shift`. -/
def shiftDomain (r : Region) (dr dc : Int) : Option Region :=
  match shiftBounded r.rows dr, shiftBounded r.cols dc with
  | some rows, some cols => some ⟨r.sheet, rows, cols⟩
  | _, _ => none

/-- eval.rs 13602-13615 and 13364-13367: the origin is moved.  Simplified: an origin that would come to lie before the first
row or column is a failure here; the code, which counts origins from one, fails only one step later. -/
def Frame.move (f : Frame) (dr dc : Int) : Option Frame :=
  match checkedShift f.origin.row dr, checkedShift f.origin.col dc with
  | some r, some c => some { f with origin := ⟨f.origin.sheet, r, c⟩ }
  | _, _ => none

/-- eval.rs 13035-13072, `shifted_read_summary`, for one dependency; `dr`, `dc` are the deltas of the origin. -/
def shiftDep (op : Op) (dr dc : Int) (d : Dependency) : Option Dependency :=
  match op.classify d.read with
  | .otherSheet => some ⟨d.read, d.rule.shifted (-dr) (-dc)⟩
  | .below => some ⟨d.read, d.rule.shifted (-dr) (-dc)⟩
  | .above => (d.read.projectThroughAxisShift op.rowDelta op.colDelta).map fun r => ⟨r, d.rule.shifted (-dr) (-dc)⟩
  | _ => none

/-- The whole of `shifted_read_summary`. -/
def shiftDeps (op : Op) (dr dc : Int) (deps : List Dependency) : Option (List Dependency) := deps.mapM (shiftDep op dr dc)

/-- producer.rs 484-549 (`from_formula_summary`), for one reference: its projection.  Names are refused. -/
def summaryRule (env : Env) (anchor : Key) : Ref → Option (Nat × Rule)
  | .cell sheet row col ra ca =>
    match sheetOf env anchor.sheet sheet with
    | none => none
    | some s => some (s, .cell (axisProjection row ra (anchor.row + 1)) (axisProjection col ca (anchor.col + 1)))
  | .range sheet none (some sc) none (some ec) _ sca _ eca =>
    match sheetOf env anchor.sheet sheet with
    | none => none
    | some s => some (s, .wholeCols (axisProjection sc sca (anchor.col + 1)) (axisProjection ec eca (anchor.col + 1)))
  | .range sheet (some sr) (some sc) (some er) (some ec) sra sca era eca =>
    match sheetOf env anchor.sheet sheet with
    | none => none
    | some s => some (s, .range (axisProjection sr sra (anchor.row + 1)) (axisProjection er era (anchor.row + 1))
        (axisProjection sc sca (anchor.col + 1)) (axisProjection ec eca (anchor.col + 1)))
  | _ => none

/-- The reference in the terms of the reference adjuster. -/
def toAdj : Ref → Adjust.Ref
  | .cell s r c ra ca => .cell s r c ra ca
  | .range s a b c d e f g h => .range s a b c d e f g h
  | .name n => .opaque n
  | .other => .opaque ""

/-- eval.rs 12955-12985, `shift_operation_for`. -/
def Op.toShift (op : Op) : Adjust.Shift :=
  match op.rows, op.del with
  | true, false => .insRows op.sheet op.at_ op.count
  | true, true => .delRows op.sheet op.at_ op.count
  | false, false => .insCols op.sheet op.at_ op.count
  | false, true => .delCols op.sheet op.at_ op.count

/-- What the adjuster makes of a reference; one that it invalidates is no longer a reference that a span can have. -/
def ofAdj (r : Ref) : Adjust.Adj → Ref
  | .ref (.cell s r c ra ca) => .cell s r c ra ca
  | .ref (.range s a b c d e f g h) => .range s a b c d e f g h
  | .ref (.opaque _) => r
  | .invalid => .other

/-- `ReferenceAdjuster` on one reference; `none` is a panic. -/
def adjusted (env : Env) (home : Nat) (op : Op) (r : Ref) : Option Ref :=
  (Adjust.adjustRef (some fun s => sheetOf env home s) op.toShift (toAdj r)).map (ofAdj r)

/-- What became of a span. -/
inductive Outcome where
  | unchanged
  | moved (s : Span)
  | halves (upper lower : Span)
  | removed
  | demoted
  | failed

/-- Runs through the references of the rewritten formula (producer.rs 471-556). -/
def summaryRules (env : Env) (anchor : Key) (refs : List Ref) : Option (List (Nat × Rule)) := refs.mapM (summaryRule env anchor)

/-- The origin on the axis of the operation. -/
def Op.originCoord (op : Op) (f : Frame) : Nat := if op.rows then f.origin.row else f.origin.col

/-- eval.rs 13630-13770: the formula is rewritten, and the read summary made anew. -/
def rewrite (env : Env) (op : Op) (s : Span) (result : Region) (f : Frame) : Outcome :=
  if op.frameSound (op.originCoord s.template) s.deps then
    match s.template.refs.mapM (adjusted env s.result.sheet op) with
    | none => .failed
    | some refs =>
      if refs = s.template.refs then .demoted
      else
      match summaryRules env f.origin refs with
      | none => .demoted
      | some ps =>
        match readSummary result [] ps with
        | none => .demoted
        | some deps => .moved ⟨result, ⟨f.origin, refs⟩, ⟨f.origin, refs⟩, ⟨f.origin, refs⟩, deps, s.single⟩
  else .demoted

/-- eval.rs 13590-13806: the `Shift` arm. -/
def applyShift (env : Env) (op : Op) (s : Span) (originMoves rewritten : Bool) : Outcome :=
  match s.template.move (if originMoves then op.rowDelta else 0) (if originMoves then op.colDelta else 0) with
  | none => .failed
  | some f =>
    match shiftDomain s.result op.rowDelta op.colDelta with
    | none => .failed
    | some result =>
      if rewritten then rewrite env op s result f
      else
        match shiftDeps op (if originMoves then op.rowDelta else 0) (if originMoves then op.colDelta else 0) s.deps with
        | none => .failed
        | some deps => .moved ⟨result, f, f, f, deps, s.single⟩

/-- structural_shift.rs 469-475, `split_axis_at`, on a range that is an interval (another is not split). -/
def splitAxis (a : AxisRange) (before : Nat) : Option (AxisRange × AxisRange) :=
  match a with
  | .span s e => if s < before ∧ before ≤ e then some (.span s (before - 1), .span before e) else none
  | _ => none

/-- structural_shift.rs 485-560, `split_domain_at`. -/
def splitDomain (r : Region) (op : Op) : Option (Region × Region) :=
  if r.sheet ≠ op.sheet then none
  else if op.rows then (splitAxis r.rows op.at_).map fun x => (⟨r.sheet, x.1, r.cols⟩, ⟨r.sheet, x.2, r.cols⟩)
  else (splitAxis r.cols op.at_).map fun x => (⟨r.sheet, r.rows, x.1⟩, ⟨r.sheet, r.rows, x.2⟩)

/-- eval.rs 13250-13277, `rederive_read_summary_for_result`. -/
def rederive (result : Region) (out : List Dependency) : List Dependency → Option (List Dependency)
  | [] => some out
  | d :: ds =>
    match d.rule.readRegions d.read.sheet result with
    | none => none
    | some rs => rederive result (pushDeps d.rule out rs) ds

/-- eval.rs 13364-13382 and 13944-14003: the lower half.  The new template has the formula of the template and the origin of
the formula shown. -/
def lowerHalf (op : Op) (s : Span) (originMoves : Bool) (lower : Region) (deps : List Dependency) : Option Span :=
  let dr := if originMoves then op.rowDelta else 0
  let dc := if originMoves then op.colDelta else 0
  match s.shown.move dr dc, shiftDomain lower op.rowDelta op.colDelta, shiftDeps op dr dc deps with
  | some f, some result, some deps =>
    some ⟨result, ⟨f.origin, s.template.refs⟩, f, ⟨f.origin, s.template.refs⟩, deps, s.single⟩
  | _, _, _ => none

/-- eval.rs 13283-13424, `plan_span_split`, and what is done with the plan. -/
def applySplit (op : Op) (s : Span) : Outcome :=
  if !s.single then .demoted
  else
    match splitDomain s.result op with
    | none => .demoted
    | some (upper, lower) =>
      match rederive upper [] s.deps, rederive lower [] s.deps with
      | some du, some dl =>
        if classifySpan op upper du ≠ .noOp then .demoted
        else
          match classifySpan op lower dl with
          | .shift originMoves false =>
            match lowerHalf op s originMoves lower dl with
            | none => .demoted
            | some l => .halves ⟨upper, s.template, s.shown, s.evaluated, du, s.single⟩ l
          | _ => .demoted
      | _, _ => .demoted

/-- eval.rs 13074-13092, `compact_axis_through_delete`. -/
def compactAxis (lo hi start count : Nat) : Option (Nat × Nat) :=
  let last := min u32Max (start + count)
  if hi < start ∨ lo ≥ last then some (lo - count, hi - count)
  else if lo < start then
    if hi ≥ last then if count ≤ hi then some (lo, hi - count) else none
    else if 1 ≤ start then some (lo, start - 1) else none
  else if hi ≥ last then if count ≤ hi then some (start, hi - count) else none
  else none

/-- eval.rs 13165-13179, `compact_axis_range_through_delete`. -/
def compactRange (a : AxisRange) (start count : Nat) : Option AxisRange :=
  match a with
  | .point p => (compactAxis p p start count).map fun x => .point x.1
  | .span s e => (compactAxis s e start count).map fun x => .span x.1 x.2
  | .all => some .all
  | _ => none

/-- eval.rs 13181-13204, `compact_region_through_delete`, and 13094-13163, `compact_domain_through_delete` (where the range on
the axis is an interval). -/
def compactRegion (op : Op) (r : Region) : Option Region :=
  if r.sheet ≠ op.sheet then some r
  else if op.rows then (compactRange r.rows op.at_ op.count).map fun a => ⟨r.sheet, a, r.cols⟩
  else (compactRange r.cols op.at_ op.count).map fun a => ⟨r.sheet, r.rows, a⟩

/-- eval.rs 13206-13240, `compact_read_summary_through_delete`, for one dependency. -/
def compactDep (op : Op) (d : Dependency) : Option Dependency :=
  match op.classify d.read with
  | .otherSheet => some d
  | .below => some d
  | .above => (d.read.projectThroughAxisShift op.rowDelta op.colDelta).map fun r => ⟨r, d.rule⟩
  | .straddles => (compactRegion op d.read).map fun r => ⟨r, d.rule⟩
  | .contained => none

/-- eval.rs 13433-13443, `origin_coord_through_delete` (the origin counted from zero). -/
def originThroughDelete (origin start count : Nat) : Option Nat :=
  if origin < start then some origin else if origin ≥ min u32Max (start + count) then some (origin - count) else none

/-- eval.rs 13451-13466, `origin_through_delete`. -/
def Frame.throughDelete (f : Frame) (op : Op) : Option Frame :=
  if op.rows then (originThroughDelete f.origin.row op.at_ op.count).map fun r => { f with origin := ⟨f.origin.sheet, r, f.origin.col⟩ }
  else (originThroughDelete f.origin.col op.at_ op.count).map fun c => { f with origin := ⟨f.origin.sheet, f.origin.row, c⟩ }

/-- eval.rs 13503-13570: a deletion that takes away some of the cells of the span. -/
def applyCompact (op : Op) (s : Span) : Outcome :=
  if s.single && !op.displacedAbsolute s.deps then
    match compactRegion op s.result, s.deps.mapM (compactDep op), s.template.throughDelete op with
    | some result, some deps, some f => .moved ⟨result, f, f, f, deps, s.single⟩
    | _, _, _ => .demoted
  else .demoted

/-- eval.rs 13498-13807: what happens to one span. -/
def apply (env : Env) (op : Op) (s : Span) : Outcome :=
  match classifySpan op s.result s.deps with
  | .noOp => .unchanged
  | .remove => .removed
  | .demote => .demoted
  | .compact => applyCompact op s
  | .split => applySplit op s
  | .shift originMoves rewritten => applyShift env op s originMoves rewritten

/-! ### The specification -/

/-- Where a coordinate of the axis goes; `none`: it is deleted. -/
def Op.moveCoord (op : Op) (x : Nat) : Option Nat :=
  if x < op.at_ then some x
  else if op.del then if x < op.at_ + op.count then none else some (x - op.count)
  else some (x + op.count)

/-- Where a cell goes. -/
def Op.move (op : Op) (k : Key) : Option Key :=
  if k.sheet ≠ op.sheet then some k
  else if op.rows then (op.moveCoord k.row).map fun r => ⟨k.sheet, r, k.col⟩
  else (op.moveCoord k.col).map fun c => ⟨k.sheet, k.row, c⟩

/-- The set `D'` of cells is the set `D` after cells have moved: a cell that is still there belongs to `D'` exactly when it
belonged to `D`, and no cell of `D` is gone. -/
structure Tracks (mv : Key → Option Key) (D D' : Key → Prop) : Prop where
  same : ∀ k k', mv k = some k' → (D' k' ↔ D k)
  kept : ∀ k, D k → ∃ k', mv k = some k'

/-- In addition `D'` has no new cells. -/
def NoNew (mv : Key → Option Key) (D' : Key → Prop) : Prop := ∀ k', D' k' → ∃ k, mv k = some k'

/-- The operation is one that the engine performs: something is inserted or deleted, within `u32`. -/
structure Op.Fits (op : Op) : Prop where
  pos : 0 < op.count
  room : op.at_ + op.count < u32Max

end Verif.Plane.Edit

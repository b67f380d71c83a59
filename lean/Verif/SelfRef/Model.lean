import Verif.Ops.Extents
import Verif.RefFn.Props
import Verif.Stripes.Props
import Verif.Edges.Props

/-!
# Formulas that read their own cell through a large or open range (C105)

`engine/graph/range_deps.rs` 6-21, 305-339, 368-553 (how a self reference through a compressed range is recognised),
580-591 and 806-813 (when it is recorded) and `engine/ingest_builder.rs` 78-119, 540-548, 630-690 (a formula loaded in bulk).

Rows and columns of the graph count from 0, those of the formula tree from 1. A self reference is recorded as an edge from the
vertex to itself; the scheduler reports a vertex with such an edge as circular (scheduler.rs 656-667).
-/
namespace Verif.SelfRef

open Verif.Ops.Ranges (Extent Bounds Hint resolveGraph)

/-- range_deps.rs 6-11 `RangeSelfUse`. -/
inductive Use
  | noMatch
  | excluded
  | included
deriving DecidableEq, Repr

/-- range_deps.rs 13-21 `merge`. -/
def Use.merge : Use → Use → Use
  | .included, _ => .included
  | _, .included => .included
  | .excluded, _ => .excluded
  | _, .excluded => .excluded
  | .noMatch, .noMatch => .noMatch

/-- The operators `static_index` tells apart. -/
inductive Sign
  | plus
  | minus
  | other
deriving DecidableEq, Repr

/-- `ASTNode` as far as it is looked at. A literal number is a `RefFn.Lit`; every other literal and an omitted argument are
`RefFn.Lit.other`. The sheet of a range is the one its name resolves to, `none` if there is none. Names, cells, tables and
calls on other references are `ref`. A function says whether its name is INDEX. -/
inductive Tree
  | lit (l : RefFn.Lit)
  | range (sheet : Option Nat) (sr sc er ec : Option Nat)
  | ref
  | un (op : Sign) (e : Tree)
  | bin (l r : Tree)
  | fn (index : Bool) (args : List Tree)
  | call (callee : Tree) (args : List Tree)
  | arr (items : List Tree)

/-- range_deps.rs 386-396 `static_index`. `checked_neg` fails for the least `i64`. -/
def staticIndex : Tree → Option Int
  | .lit (.int i) => some i
  | .lit (.number q) => some (RefFn.asI64 q)
  | .un .plus e => staticIndex e
  | .un .minus e =>
    match staticIndex e with
    | some i => if i = -9223372036854775808 then none else some (-i)
    | none => none
  | _ => none

/-- A range dependency, as the graph keeps it: its sheet and bounds. -/
structure Key where
  sheet : Nat
  b : Bounds
deriving DecidableEq

/-- range_deps.rs 398-432 `matching_range`. -/
def matching (k : Key) : Tree → Bool
  | .range sheet sr sc er ec =>
    decide (sheet = some k.sheet ∧ sr.map (· - 1) = k.b.sr ∧ er.map (· - 1) = k.b.er ∧
      sc.map (· - 1) = k.b.sc ∧ ec.map (· - 1) = k.b.ec)
  | _ => false

/-- What INDEX selects: a position and, if there is a third argument, a column. -/
abbrev Sel := Int × Option Int

/-- `sr.checked_add(u32::try_from(row).ok()?.saturating_sub(1))?` (range_deps.rs 456, 462, 468-469). -/
def step32 (start : Nat) (i : Int) : Option Nat :=
  if i < 4294967296 then
    if start + (i.toNat - 1) < 4294967296 then some (start + (i.toNat - 1)) else none
  else none

/-- range_deps.rs 443-447: which row and which column are meant. -/
def pickRC (g : Extent) (s : Sel) : Int × Int :=
  match s.2 with
  | some c => (s.1, c)
  | none => if g.sr = g.er then (1, s.1) else (s.1, 1)

/-- range_deps.rs 453-475, after the row and the column are known. -/
def containsAt (g : Extent) (own : Nat × Nat) (row col : Int) : Option Bool :=
  if row = 0 ∧ col = 0 then
    some (decide (g.sr ≤ own.1 ∧ own.1 ≤ g.er ∧ g.sc ≤ own.2 ∧ own.2 ≤ g.ec))
  else if col = 0 then
    (step32 g.sr row).map fun r => decide (r ≤ g.er ∧ own.1 = r ∧ g.sc ≤ own.2 ∧ own.2 ≤ g.ec)
  else if row = 0 then
    (step32 g.sc col).map fun c => decide (c ≤ g.ec ∧ own.2 = c ∧ g.sr ≤ own.1 ∧ own.1 ≤ g.er)
  else
    match step32 g.sr row, step32 g.sc col with
    | some r, some c => some (decide (r ≤ g.er ∧ c ≤ g.ec ∧ own.1 = r ∧ own.2 = c))
    | _, _ => none

/-- range_deps.rs 448-450: a negative number selects nothing. -/
def selectedAt (g : Extent) (own : Nat × Nat) (row col : Int) : Option Bool :=
  if row < 0 ∨ col < 0 then some false else containsAt g own row col

/-- range_deps.rs 434-476 `selected_region_contains_self`; `g` are the bounds of `compressed_range_resolved_bounds`
(342-366). A formula of a name has no place; here every formula has one. -/
def selected (g : Option Extent) (own : Nat × Nat) (s : Sel) : Option Bool :=
  match g with
  | none => none
  | some e => selectedAt e own (pickRC e s).1 (pickRC e s).2

/-- range_deps.rs 487-492: the verdict on one occurrence. -/
def verdict (g : Option Extent) (own : Nat × Nat) (s : Option Sel) : Use :=
  match s with
  | none => .included
  | some s =>
    match selected g own s with
    | some false => .excluded
    | some true => .included
    | none => .included

/-- range_deps.rs 495-506: the numbers of an INDEX with these arguments behind the first. -/
def selection : List Tree → Option Sel
  | [r] => (staticIndex r).map fun i => (i, none)
  | [r, c] =>
    match staticIndex r, staticIndex c with
    | some i, some j => some (i, some j)
    | _, _ => none
  | _ => none

mutual
/-- range_deps.rs 478-550 `visit`. -/
def visit (k : Key) (g : Option Extent) (own : Nat × Nat) : Tree → Option Sel → Use
  | .range sheet sr sc er ec, s =>
    if matching k (.range sheet sr sc er ec) then verdict g own s else .noMatch
  | .fn true (a :: rest), _ =>
    if rest.length = 1 ∨ rest.length = 2 then (visit k g own a (selection rest)).merge (visitAll k g own rest)
    else (visit k g own a none).merge (visitAll k g own rest)
  | .fn true [], _ => .noMatch
  | .fn false args, _ => visitAll k g own args
  | .un _ e, _ => visit k g own e none
  | .bin l r, _ => (visit k g own l none).merge (visit k g own r none)
  | .call f args, _ => (visit k g own f none).merge (visitAll k g own args)
  | .arr items, _ => visitAll k g own items
  | .lit _, _ => .noMatch
  | .ref, _ => .noMatch

/-- The folds over arguments and items; the order of merging does not matter (`merge_assoc`). -/
def visitAll (k : Key) (g : Option Extent) (own : Nat × Nat) : List Tree → Use
  | [] => .noMatch
  | t :: ts => (visit k g own t none).merge (visitAll k g own ts)
end

/-- range_deps.rs 310-332 `range_region_contains_self`: `own` is the place of the formula, `mine` its sheet. -/
def covers (mine : Nat) (own : Nat × Nat) (k : Key) : Bool :=
  decide (mine = k.sheet ∧ (∀ x, k.b.sr = some x → x ≤ own.1) ∧ (∀ x, k.b.er = some x → own.1 ≤ x) ∧
    (∀ x, k.b.sc = some x → x ≤ own.2) ∧ (∀ x, k.b.ec = some x → own.2 ≤ x))

/-- A formula and what the graph knows when it registers it: sheet and place, tree, used rows and columns of its sheets. -/
structure Formula where
  sheet : Nat
  own : Nat × Nat
  tree : Tree
  bounds : Key → Option Extent

/-- range_deps.rs 586-591 and 808-813: a self reference is recorded for one of the ranges. -/
def records (f : Formula) (ranges : List Key) : Bool :=
  ranges.any fun k => covers f.sheet f.own k && decide (visit k (f.bounds k) f.own f.tree none ≠ .excluded)

/-- The ranges of the graph as in `Stripes`. -/
def Key.toRange (k : Key) : Stripes.Range := ⟨k.sheet, k.b.sr, k.b.sc, k.b.er, k.b.ec⟩

def Key.ofRange (r : Stripes.Range) : Key := ⟨r.sheet, ⟨r.startRow, r.startCol, r.endRow, r.endCol⟩⟩

/-- ingest_builder.rs 194-200 and range_deps.rs 739-785: the ranges registered for a formula loaded in bulk. -/
def bulkKeys (ranges : List Key) : List Key :=
  (ranges.filterMap fun k => Stripes.rangeOfKey (Stripes.rangeKeyFromShared k.toRange)).map Key.ofRange

end Verif.SelfRef

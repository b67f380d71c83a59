import Mathlib.Data.List.Sort
import Verif.Evid.Model

/-!
# Who handles each formula of a shared formula taken in parts

Model of `/repo/crates/formualizer-eval/src/engine/formula_source.rs`:
* 66-95 (`PlacementDomainTransport::rect`), 155-201 (`ExplicitPartitionLegacyMembers`),
* 214-389 (`PartitionedSourceFormulaFamily`: `reconciles_compact_geometry`, `validate`),
* 392-601 (`FormulaReplayDisposition`),
* 603-787 (`FormulaReplayPartitionRouter`: sweep, tree and lookup),
* 827-875 (rectangles and their checks),

and of `workbook/src/backends/calamine.rs` 655-706 (what the loader hands over).

Coordinates are natural numbers; where the width of the machine numbers matters it is
said. Maps are lists of pairs with one entry for each key. The error texts are kept.
-/

namespace Verif.Route

open Verif.Evid

/-- `PlacementDomainTransport::rect`: 66-95. -/
def rectOf : Domain → Rect
  | .rowRun a b col => ⟨⟨a, col⟩, ⟨b, col⟩⟩
  | .colRun row a b => ⟨⟨row, a⟩, ⟨row, b⟩⟩
  | .rect r => r

/-- `PartitionLegacyMemberKind`: 140-143. -/
inductive Kind where
  | shared
  | ordinary
deriving DecidableEq

/-- `PartitionLegacyMember`: 147-150. -/
structure Member where
  coord : Coord
  kind : Kind
deriving DecidableEq

/-- `ExplicitPartitionLegacyMembers::try_new`: 160-174. Keys that are equal lead to an
error, so the sort need not be stable. -/
def tryNew (members : List Member) : Except String (List Member) :=
  if 4096 < members.length then .error "ExplicitMemberLimitExceeded"
  else
    let sorted := members.insertionSort fun a b => a.coord.le b.coord
    if (sorted.zip sorted.tail).any fun p => p.1.coord = p.2.coord then .error "PartitionLegacyMembersDuplicate"
    else .ok sorted

/-- `shared_member_count`: 188-193. -/
def sharedCount (members : List Member) : Nat := (members.filter fun m => m.kind = .shared).length

/-- `ordinary_exception_count`: 195-200. -/
def ordinaryCount (members : List Member) : Nat := (members.filter fun m => m.kind = .ordinary).length

/-- `PartitionedSourceFormulaFamily` with its `PartitionReconciliation`: 214-258. The
text and the order token play no part. -/
structure Family where
  id : Nat
  origin : Coord
  declared : Rect
  surviving : Nat
  fragments : List Domain
  legacy : List Member
  sharedMembers : Nat
  ordinaryExceptions : Nat
  holes : Nat
deriving DecidableEq

/-- `WorkbookLoadLimits`, as far as used. -/
structure Limits where
  rows : Nat
  cols : Nat
  cells : Nat

/-- `u64::checked_add`. -/
def addU64 (a b : Nat) : Option Nat := if a + b < 2 ^ 64 then some (a + b) else none

/-- The loop over the fragments in `reconciles_compact_geometry`: 262-282. `none` is
`return false`. -/
def compactLoop (declared : Rect) : List Domain → List Rect → Nat → Option (List Rect × Nat)
  | [], rects, cells => some (rects, cells)
  | d :: ds, rects, cells =>
    let r := rectOf d
    if r.stop.row < r.start.row ∨ r.stop.col < r.start.col ∨ ¬contains declared r.start ∨ ¬contains declared r.stop ∨
        (rects.any fun p => overlap p r) = true then none
    else
      match area r with
      | none => none
      | some a =>
        match addU64 cells a with
        | none => none
        | some n => compactLoop declared ds (rects ++ [r]) n

/-- `reconciles_compact_geometry`: 261-306. -/
def compact (f : Family) : Bool :=
  match compactLoop f.declared f.fragments [] 0 with
  | none => false
  | some (rects, cells) =>
    if f.legacy.any fun m => ¬contains f.declared m.coord ∨ (rects.any fun r => contains r m.coord) = true then false
    else
      match addU64 cells (sharedCount f.legacy) with
      | none => false
      | some shared =>
        match (addU64 shared (ordinaryCount f.legacy)).bind fun n => addU64 n f.holes with
        | none => false
        | some accounted =>
          area f.declared = some accounted && shared = f.surviving && f.sharedMembers = shared &&
            f.ordinaryExceptions = ordinaryCount f.legacy

/-- `source_coord_in_bounds`: 827-829. -/
def inBounds (l : Limits) (c : Coord) : Bool := c.row < l.rows && c.col < l.cols

/-- `source_rect_valid`: 831-836. -/
def rectValid (l : Limits) (r : Rect) : Bool :=
  inBounds l r.start && inBounds l r.stop && r.start.row ≤ r.stop.row && r.start.col ≤ r.stop.col

/-- `validate_partition_legacy_members`: 858-875. -/
def validateLegacy (l : Limits) (members : List Member) : Except String Unit :=
  if members.any fun m => !inBounds l m.coord then .error "PartitionLegacyMemberOutOfBounds"
  else if ¬increasing (members.map Member.coord) = true then .error "PartitionLegacyMembersNotStrictlySorted"
  else .ok ()

/-- The loop over the fragments in `validate`: 322-341. -/
def validateLoop (l : Limits) (declared : Rect) : List Domain → List Rect → Nat → Except String (List Rect × Nat)
  | [], rects, cells => .ok (rects, cells)
  | d :: ds, rects, cells =>
    let r := rectOf d
    if ¬rectValid l r = true then .error "PartitionFragmentOutOfBounds"
    else if ¬contains declared r.start ∨ ¬contains declared r.stop then .error "PartitionFragmentOutsideDeclaredRange"
    else if rects.any fun p => overlap p r then .error "PartitionFragmentsOverlap"
    else
      match area r with
      | none => .error "PartitionAreaOverflow"
      | some a =>
        match addU64 cells a with
        | none => .error "PartitionAreaOverflow"
        | some n => validateLoop l declared ds (rects ++ [r]) n

/-- The members are looked at one by one: 343-353. -/
def validateMembers (declared : Rect) (rects : List Rect) : List Member → Except String Unit
  | [] => .ok ()
  | m :: ms =>
    if ¬contains declared m.coord then .error "PartitionLegacyMemberOutsideDeclaredRange"
    else if rects.any fun r => contains r m.coord then .error "PartitionLegacyMemberOverlapsFragment"
    else validateMembers declared rects ms

/-- The counts and the origin: 354-387. -/
def validateCounts (l : Limits) (f : Family) (rects : List Rect) (cells : Nat) : Except String Unit :=
  match addU64 cells (sharedCount f.legacy) with
  | none => .error "PartitionAreaOverflow"
  | some total =>
    if total ≠ f.surviving ∨ f.sharedMembers ≠ f.surviving ∨ f.ordinaryExceptions ≠ ordinaryCount f.legacy then
      .error "PartitionMemberCountMismatch"
    else
      match area f.declared with
      | none => .error "PartitionAreaOverflow"
      | some declaredArea =>
        match (addU64 f.sharedMembers f.ordinaryExceptions).bind fun n => addU64 n f.holes with
        | none => .error "PartitionAreaOverflow"
        | some accounted =>
          if accounted ≠ declaredArea then .error "PartitionReconciliationMismatch"
          else if (rects.any fun r => contains r f.origin) = false ∧
              (f.legacy.any fun m => m.coord = f.origin && m.kind = .shared) = false then
            .error "PartitionMissingTemplateOrigin"
          else if l.cells < declaredArea then .error "PartitionLogicalCellLimitExceeded"
          else .ok ()

/-- `validate`: 308-389. The conversions from `usize` to `u64` cannot fail. -/
def validate (l : Limits) (f : Family) : Except String Unit :=
  if ¬inBounds l f.origin = true then .error "PartitionTemplateOriginOutOfBounds"
  else if ¬rectValid l f.declared = true then .error "PartitionDeclaredRangeOutOfBounds"
  else if f.fragments = [] then .error "PartitionHasNoFragments"
  else if 128 < f.fragments.length then .error "PartitionFragmentLimitExceeded"
  else
    match validateLoop l f.declared f.fragments [] 0 with
    | .error e => .error e
    | .ok (rects, cells) =>
      match validateLegacy l f.legacy with
      | .error e => .error e
      | .ok () =>
        match validateMembers f.declared rects f.legacy with
        | .error e => .error e
        | .ok () => validateCounts l f rects cells

/-! ## Dispositions -/

/-- `FormulaReplayCoordinateDisposition`: 396-401. -/
inductive Disp where
  | direct
  | legacyShared
  | legacyOrdinary
  | suppressed
deriving DecidableEq

/-- `BTreeMap::insert`. -/
def put {α β : Type} [DecidableEq α] (k : α) (v : β) (m : List (α × β)) : List (α × β) :=
  (k, v) :: m.filter fun p => p.1 ≠ k

/-- `BTreeMap::get`. -/
def get {α β : Type} [DecidableEq α] (k : α) : List (α × β) → Option β
  | [] => none
  | (a, b) :: m => if a = k then some b else get k m

/-- `FormulaReplayDisposition`: 408-413. -/
structure Plan where
  defaults : List (Nat × Disp) := []
  overrides : List ((Nat × Coord) × Disp) := []
  owners : List (Coord × Nat) := []
  suppressed : List (Nat × Nat) := []
deriving DecidableEq

/-- The members are entered one by one: 446-457. -/
def enter (id : Nat) : List Member → Plan → Plan
  | [], p => p
  | m :: ms, p =>
    match m.kind with
    | .shared => enter id ms { p with overrides := put (id, m.coord) .legacyShared p.overrides }
    | .ordinary => enter id ms { p with owners := put m.coord id p.owners }

/-- `register_partition`: 426-459. -/
def Plan.register (p : Plan) (f : Family) (direct : Bool) : Except String Plan :=
  if f.legacy.any fun m => m.kind = .ordinary && (get m.coord p.owners).any fun o => o ≠ f.id then
    .error "PartitionOrdinaryOwnerConflict"
  else .ok (enter f.id f.legacy { p with defaults := put f.id (if direct then .direct else .legacyShared) p.defaults })

/-- `extend_suppressed_excel_coords`: 461-466. -/
def Plan.suppress (p : Plan) (cs : List (Nat × Nat)) : Plan := { p with suppressed := cs ++ p.suppressed }

/-- `saturating_add(1)` of `u32`. -/
def up (n : Nat) : Nat := min (n + 1) (2 ^ 32 - 1)

/-- `shared_disposition` of the disposition: 468-484. -/
def Plan.shared (p : Plan) (id : Nat) (c : Coord) : Disp :=
  if (up c.row, up c.col) ∈ p.suppressed then .suppressed
  else ((get (id, c) p.overrides).or (get id p.defaults)).getD .legacyShared

/-- `ordinary_disposition`: 486-500. -/
def Plan.ordinary (p : Plan) (c : Coord) : Disp × Option Nat :=
  if (up c.row, up c.col) ∈ p.suppressed then (.suppressed, none) else (.legacyOrdinary, get c p.owners)

/-- Equality of two sets given as lists. -/
def sameSet {α : Type} [DecidableEq α] (a b : List α) : Bool := a.all (· ∈ b) && b.all (· ∈ a)

/-- `checked_sub(1)` of both numbers: 549-555. -/
def down (q : Nat × Nat) : Option Coord := if q.1 = 0 ∨ q.2 = 0 then none else some ⟨q.1 - 1, q.2 - 1⟩

/-- Whether a suppressed cell touches the family: 548-565. -/
def touches (f : Family) (q : Nat × Nat) : Bool :=
  match down q with
  | none => true
  | some c => (f.fragments.any fun d => contains (rectOf d) c) || f.legacy.any fun m => m.coord = c

/-- `owns_partition_exactly`: 506-566. -/
def Plan.owns (p : Plan) (f : Family) : Bool :=
  if get f.id p.defaults ≠ some .direct then false
  else if ¬sameSet ((p.overrides.filter fun e => e.1.1 = f.id).map fun e => (e.1.2, e.2))
      ((f.legacy.filter fun m => m.kind = .shared).map fun m => (m.coord, Disp.legacyShared)) = true then false
  else if ¬sameSet ((p.owners.filter fun e => e.2 = f.id).map fun e => e.1)
      ((f.legacy.filter fun m => m.kind = .ordinary).map fun m => m.coord) = true then false
  else !p.suppressed.any (touches f)

/-- `partition_disposition`: 569-600. -/
def Plan.part (p : Plan) (f : Family) (c : Coord) : Option Disp :=
  if ¬contains f.declared c then none
  else
    match f.legacy.find? fun m => m.coord = c with
    | some ⟨_, .shared⟩ => some (p.shared f.id c)
    | some ⟨_, .ordinary⟩ => if (p.ordinary c).2 = some f.id then some (p.ordinary c).1 else none
    | none => if (f.fragments.any fun d => contains (rectOf d) c) = true then some (p.shared f.id c) else none

/-! ## The router -/

/-- The middle row of a rectangle: 631-636. -/
def middle (r : Rect) : Nat := r.start.row + (r.stop.row - r.start.row) / 2

/-- `FormulaReplayRectNode`: 618-623. -/
inductive Node where
  | nil
  | node (center : Nat) (byCol : List Rect) (left right : Node)

/-- The order of `by_col`: 648. -/
def colLe (a b : Rect) : Prop := a.start.col < b.start.col ∨ a.start.col = b.start.col ∧ a.stop.col ≤ b.stop.col

instance : DecidableRel colLe := fun a b => by unfold colLe; infer_instance

/-- `build`: 626-655. The row is the middle one of the sorted middle rows, which is
what `select_nth_unstable_by_key` puts at `middle`. The first argument bounds the depth;
the number of rectangles suffices. -/
def build : Nat → List Rect → Node
  | 0, _ => .nil
  | _, [] => .nil
  | n + 1, r :: rs =>
    let center := (((r :: rs).map middle).insertionSort (· ≤ ·)).getD ((r :: rs).length / 2) 0
    .node center
      (((r :: rs).filter fun q => ¬q.stop.row < center ∧ ¬center < q.start.row).insertionSort colLe)
      (build n ((r :: rs).filter fun q => q.stop.row < center))
      (build n ((r :: rs).filter fun q => ¬q.stop.row < center ∧ center < q.start.row))

/-- `contains`: 657-675. `partition_point` finds the first rectangle beginning after the
column. -/
def Node.has : Node → Coord → Bool
  | .nil, _ => false
  | .node center byCol left right, c =>
    if ((byCol.takeWhile fun r => r.start.col ≤ c.col).getLast?).any fun r => contains r c then true
    else if c.row < center then left.has c
    else if center < c.row then right.has c
    else false

/-- An event of the sweep: row, whether it is an end, index and rectangle: 681-684. -/
structure Event where
  row : Nat
  isEnd : Bool
  index : Nat
  rect : Rect

/-- The events of the rectangles from an index on: 681-684. -/
def events : Nat → List Rect → List Event
  | _, [] => []
  | i, r :: rs => ⟨r.start.row, false, i, r⟩ :: ⟨r.stop.row, true, i, r⟩ :: events (i + 1) rs

/-- The key of the sort: 685. -/
def evLe (a b : Event) : Prop :=
  a.row < b.row ∨ a.row = b.row ∧
    ((a.isEnd = false ∧ b.isEnd = true) ∨ a.isEnd = b.isEnd ∧ a.index ≤ b.index)

instance : DecidableRel evLe := fun a b => by unfold evLe; infer_instance

/-- Insertion into `active`, a map by the first column. -/
def place (r : Rect) : List Rect → List Rect
  | [] => [r]
  | a :: l => if r.start.col < a.start.col then r :: a :: l
    else if r.start.col = a.start.col then r :: l else a :: place r l

/-- The sweep over the events: 686-709. `active` is kept by first column; an entry stands
for the rectangle it came from. -/
def sweep : List Rect → List Event → Bool
  | _, [] => true
  | active, e :: es =>
    if e.isEnd then sweep (active.filter fun a => a.start.col ≠ e.rect.start.col) es
    else if ((active.takeWhile fun a => a.start.col ≤ e.rect.start.col).getLast?).any (fun a => e.rect.start.col ≤ a.stop.col)
        || ((active.dropWhile fun a => a.start.col < e.rect.start.col).head?).any (fun a => a.start.col ≤ e.rect.stop.col) then false
    else if active.any fun a => a.start.col = e.rect.start.col then false
    else sweep (place e.rect active) es

/-- `validate_disjoint`: 679-711. -/
def disjointOk (rects : List Rect) : Bool := sweep [] ((events 0 rects).insertionSort evLe)

/-- `FormulaReplayFamilyRouter`: 611-615. -/
structure Entry where
  declared : Rect
  legacy : List (Coord × Kind)
  direct : Node

/-- The map of the legacy members: 721-726. -/
def legacyMap : List Member → List (Coord × Kind) → List (Coord × Kind)
  | [], m => m
  | x :: xs, m => legacyMap xs (put x.coord x.kind m)

/-- `FormulaReplayPartitionRouter::new`: 713-756. -/
def router : List Family → List (Nat × Entry) → Except String (List (Nat × Entry))
  | [], m => .ok m
  | f :: fs, m =>
    if ¬valid f.declared then .error "partition replay router received an invalid declared domain"
    else
      let rects := f.fragments.map rectOf
      if rects.any fun r => ¬valid r ∨ ¬contains f.declared r.start ∨ ¬contains f.declared r.stop then
        .error "partition replay router received an invalid fragment domain"
      else if ¬disjointOk rects = true then .error "partition replay router received overlapping domains"
      else if (get f.id m).isSome then .error "partition replay router received duplicate family ownership"
      else router fs (put f.id ⟨f.declared, legacyMap f.legacy [], build rects.length rects⟩ m)

/-- `shared_disposition` of the router: 758-786. -/
def route (m : List (Nat × Entry)) (p : Plan) (id : Nat) (c : Coord) : Disp :=
  match get id m with
  | none => p.shared id c
  | some e =>
    if ¬contains e.declared c then .legacyShared
    else
      match get c e.legacy with
      | some .shared => p.shared id c
      | some .ordinary => .legacyShared
      | none => if e.direct.has c then p.shared id c else .legacyShared

end Verif.Route

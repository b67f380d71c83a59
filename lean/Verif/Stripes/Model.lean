/-!
# Model of the compressed range index

`crates/formualizer-eval/src/engine/graph/range_deps.rs` (registration), `graph/mod.rs`
(`collect_range_dependents_for_rect`, the range part of `remove_dependent_edges`) and
`engine/ingest_builder.rs` (`range_key_from_shared`).

Vertices and sheets are numbers.  The sheet of a range is already resolved (ingest stores
`SharedSheetLocator::Id`).  The map from stripe to a set of dependents is a list of pairs; the code removes
empty sets, so the map is empty exactly when the list is.  Self loops and test counters are left out.
-/

namespace Verif.Stripes

/-- formualizer-common address.rs `SheetRangeRef`: 0-based inclusive bounds, `none` = unbounded. -/
structure Range where
  sheet : Nat
  startRow : Option Nat
  startCol : Option Nat
  endRow : Option Nat
  endCol : Option Nat
deriving DecidableEq, Repr

/-- address.rs 445-465 `SheetRangeRef::from_parts`. -/
def fromParts (sheet : Nat) (sr sc er ec : Option Nat) : Option Range :=
  let bad (a b : Option Nat) : Bool := match a, b with | some x, some y => decide (x > y) | _, _ => false
  if bad sr er then none else if bad sc ec then none else some ⟨sheet, sr, sc, er, ec⟩

/-- graph/mod.rs 126-130 `StripeType`. -/
inductive StripeType | row | column | block
deriving DecidableEq, Repr

/-- graph/mod.rs `StripeKey`. -/
structure Key where
  sheet : Nat
  type : StripeType
  index : Nat
deriving DecidableEq, Repr

/-- graph/mod.rs 133-134. -/
def BLOCK_H : Nat := 256
def BLOCK_W : Nat := 256

/-- graph/mod.rs 136-138 `block_index` (32-bit shift drops the high bits). -/
def blockIndex (row col : Nat) : Nat := ((row / BLOCK_H) * 65536) % 2 ^ 32 ||| (col / BLOCK_W)

/-- The Rust loop `for i in a..=b`. -/
def upto (a b : Nat) : List Nat := List.range' a (b + 1 - a)

/-- range_deps.rs 594-724 (and the same code at 815-906, and mod.rs 3241-3305): the stripes of one range. -/
def stripeKeys (blocks : Bool) (r : Range) : List Key :=
  let colStripes := (r.startRow.isNone && r.endRow.isNone) ||
    (r.startCol.isSome && r.endCol.isSome && (r.startRow.isNone || r.endRow.isNone))
  let rowStripes := (r.startCol.isNone && r.endCol.isNone) ||
    (r.startRow.isSome && r.endRow.isSome && (r.startCol.isNone || r.endCol.isNone))
  if colStripes && !rowStripes then
    let sc := r.startCol.getD 0
    let ec := r.endCol.getD sc
    (upto sc ec).map fun c => ⟨r.sheet, .column, c⟩
  else if rowStripes && !colStripes then
    let sr := r.startRow.getD 0
    let er := r.endRow.getD sr
    (upto sr er).map fun i => ⟨r.sheet, .row, i⟩
  else
    let startRow := r.startRow.getD 0
    let startCol := r.startCol.getD 0
    let endRow := r.endRow.getD startRow
    let endCol := r.endCol.getD startCol
    let height := endRow - startRow + 1
    let width := endCol - startCol + 1
    if blocks && decide (height > 1) && decide (width > 1) then
      (upto (startRow / BLOCK_H) (endRow / BLOCK_H)).flatMap fun br =>
        (upto (startCol / BLOCK_W) (endCol / BLOCK_W)).map fun bc =>
          ⟨r.sheet, .block, blockIndex (br * BLOCK_H) (bc * BLOCK_W)⟩
    else if height > width then
      (upto startCol endCol).map fun c => ⟨r.sheet, .column, c⟩
    else
      (upto startRow endRow).map fun i => ⟨r.sheet, .row, i⟩

/-- graph/mod.rs 226-230: the two maps, and `config.enable_block_stripes`. -/
structure Index where
  blocks : Bool
  deps : Nat → Option (List Range) := fun _ => none
  stripes : List (Key × Nat) := []

/-- range_deps.rs 555-726 `add_range_dependent_edges`. -/
def addRanges (ix : Index) (v : Nat) (ranges : List Range) : Index :=
  if ranges = [] then ix
  else
    { ix with
      deps := fun u => if u = v then some ranges else ix.deps u
      stripes := ranges.foldl (fun st r => (stripeKeys ix.blocks r).map (fun k => (k, v)) ++ st) ix.stripes }

/-- engine/plan.rs 15-33 `RangeKey` (rectangles are 0-based, whole rows and columns 1-based). -/
inductive RangeKey
  | rect (sheet : Nat) (start stop : Nat × Nat)
  | wholeRow (sheet row : Nat)
  | wholeCol (sheet col : Nat)
  | openRect (sheet : Nat) (start stop : Option (Nat × Nat))
deriving DecidableEq, Repr

/-- `Option::zip`. -/
def zipOpt (a b : Option Nat) : Option (Nat × Nat) :=
  match a, b with | some x, some y => some (x, y) | _, _ => none

/-- ingest_builder.rs 78-119 `range_key_from_shared`. -/
def rangeKeyFromShared (r : Range) : RangeKey :=
  let openKey := RangeKey.openRect r.sheet (zipOpt r.startRow r.startCol) (zipOpt r.endRow r.endCol)
  match r.startRow, r.startCol, r.endRow, r.endCol with
  | some sr, some sc, some er, some ec => .rect r.sheet (sr, sc) (er, ec)
  | none, some sc, none, some ec => if sc = ec then .wholeCol r.sheet (sc + 1) else openKey
  | some sr, none, some er, none => if sr = er then .wholeRow r.sheet (sr + 1) else openKey
  | _, _, _, _ => openKey

/-- range_deps.rs 740-782: the range rebuilt from a key. -/
def rangeOfKey : RangeKey → Option Range
  | .rect s a b => fromParts s (some a.1) (some a.2) (some b.1) (some b.2)
  | .wholeRow s row => fromParts s (some (row - 1)) none (some (row - 1)) none
  | .wholeCol s col => fromParts s none (some (col - 1)) none (some (col - 1))
  | .openRect s a b => fromParts s (a.map (·.1)) (a.map (·.2)) (b.map (·.1)) (b.map (·.2))

/-- range_deps.rs 728-908 `add_range_deps_from_keys`. -/
def addKeys (ix : Index) (v : Nat) (keys : List RangeKey) : Index :=
  if keys = [] then ix else addRanges ix v (keys.filterMap rangeOfKey)

/-- graph/mod.rs 3224-3324: the range part of `remove_dependent_edges`. -/
def remove (ix : Index) (v : Nat) : Index :=
  match ix.deps v with
  | none => ix
  | some old =>
    { ix with
      deps := fun u => if u = v then none else ix.deps u
      stripes := old.foldl
        (fun st r => st.filter fun p => !(decide (p.2 = v) && (stripeKeys ix.blocks r).contains p.1)) ix.stripes }

/-- An edited rectangle, 0-based inclusive. -/
structure Rect where
  startRow : Nat
  startCol : Nat
  endRow : Nat
  endCol : Nat

/-- graph/mod.rs 3814-3856: the stripes a rectangle touches. -/
def rectKeys (blocks : Bool) (sheet : Nat) (q : Rect) : List Key :=
  ((upto q.startCol q.endCol).map fun c => ⟨sheet, .column, c⟩) ++
  ((upto q.startRow q.endRow).map fun i => ⟨sheet, .row, i⟩) ++
  (if blocks then
    (upto (q.startRow / BLOCK_H) (q.endRow / BLOCK_H)).flatMap fun br =>
      (upto (q.startCol / BLOCK_W) (q.endCol / BLOCK_W)).map fun bc =>
        ⟨sheet, .block, blockIndex (br * BLOCK_H) (bc * BLOCK_W)⟩
  else [])

/-- `u32::MAX`. -/
def U32MAX : Nat := 2 ^ 32 - 1

/-- graph/mod.rs 3866-3882: the precision check for one range. -/
def rangeHit (sheet : Nat) (q : Rect) (r : Range) : Bool :=
  r.sheet == sheet && decide (r.startRow.getD 0 ≤ q.endRow) && decide (r.endRow.getD U32MAX ≥ q.startRow) &&
    decide (r.startCol.getD 0 ≤ q.endCol) && decide (r.endCol.getD U32MAX ≥ q.startCol)

/-- graph/mod.rs 3803-3889 `collect_range_dependents_for_rect`. The order of the result is that of a hash set
in the code; here it is the order of the index. -/
def collect (ix : Index) (sheet : Nat) (q : Rect) : List Nat :=
  let candidates := ((ix.stripes.filter fun p => (rectKeys ix.blocks sheet q).contains p.1).map Prod.snd).eraseDups
  candidates.filter fun v => match ix.deps v with | none => false | some rs => rs.any (rangeHit sheet q)

/-- range_deps.rs 189-270 `visit_range_dependents_covering_bounded` with enough work and a visitor that never
stops: the dependents visited for one cell. -/
def visitCovering (ix : Index) (sheet row col : Nat) : List Nat :=
  let keys : List Key := [⟨sheet, .column, col⟩, ⟨sheet, .row, row⟩] ++
    (if ix.blocks then [⟨sheet, .block, blockIndex row col⟩] else [])
  let candidates := (keys.flatMap fun k => (ix.stripes.filter fun p => p.1 == k).map Prod.snd).eraseDups
  candidates.filter fun v => match ix.deps v with
    | none => false
    | some rs => rs.any fun r => r.sheet == sheet && decide (r.startRow.getD 0 ≤ row) &&
        decide (row ≤ r.endRow.getD U32MAX) && decide (r.startCol.getD 0 ≤ col) && decide (col ≤ r.endCol.getD U32MAX)

/-- What the graph does with the index: a formula set by an edit registers its ranges directly, a formula loaded
in bulk registers them through keys (ingest_builder.rs 194-200, 544-547), and clearing or replacing a formula
removes them. -/
inductive Op
  | direct (v : Nat) (ranges : List Range)
  | bulk (v : Nat) (ranges : List Range)
  | remove (v : Nat)

def step (ix : Index) : Op → Index
  | .direct v rs => addRanges ix v rs
  | .bulk v rs => addKeys ix v (rs.map rangeKeyFromShared)
  | .remove v => Stripes.remove ix v

def run (blocks : Bool) (ops : List Op) : Index := ops.foldl step { blocks := blocks }

end Verif.Stripes

import Verif.Spill.Locks
import Mathlib.Data.List.Dedup

/-!
# Array results written into neighbouring cells ("spills")

Model of the spill part of `crates/formualizer-eval/src/engine/graph/mod.rs` (plan 3343-3448, commit 3456-3609, clear
3630-3705, region query 1547-1567, cell writes 1849-1925, formula entry 2140-2329, `update_vertex_value` 3331-3341) and
of the evaluation step for array and scalar results in `engine/eval.rs` (23193-23298, 25358-25495, 25515-25935).

Simplifications, all of them recorded in DESIGN.md:
* hash maps are functions, the per-sheet `BTreeMap` is an association list (an absent sheet is the empty list);
* a value is empty, an opaque payload, or a `#SPILL!` error; `normalize_stored_literal` (Int to Number) is the identity;
* a formula is an opaque number; dependency edges, dirty flags, names, admission budgets, formats, deltas and the
  change log are left out;
* the grid store of values is three layers per cell (base, computed overlay, user overlay), read in the order of
  `arrow_store/mod.rs` 3705-3711; overlay budgets and compaction are left out, all three overlay switches are on;
* rows and columns are natural numbers; the evaluation step refuses anything beyond the sheet, as in the source.
-/

namespace Verif.Spill

/-- `CellRef` with the absolute flags both set, as `make_cell_ref_internal` (graph/mod.rs 3986) makes it; 0-based. -/
structure Cell where
  sheet : Nat
  row : Nat
  col : Nat
deriving DecidableEq, Repr

/-- `LiteralValue`, reduced to what the spill code distinguishes. -/
inductive Val
  | empty
  | num (n : Nat)
  | spillErr
deriving DecidableEq, Repr

/-- `VertexKind`, reduced to formula or not. -/
inductive Kind
  | cell
  | formula
deriving DecidableEq, Repr

/-- The fields of `DependencyGraph` the spill code reads or writes. -/
structure Graph where
  /-- `value_cache_enabled` (graph/mod.rs 184). -/
  cache : Bool := false
  /-- `cell_to_vertex`. -/
  at' : Cell → Option Nat := fun _ => none
  /-- `get_cell_ref`, from the vertex store. -/
  pos : Nat → Option Cell := fun _ => none
  kind : Nat → Kind := fun _ => .cell
  /-- `vertex_formulas`. -/
  fml : Nat → Option Nat := fun _ => none
  /-- `vertex_values`. -/
  val : Nat → Option Val := fun _ => none
  /-- next vertex id of the store. -/
  next : Nat := 0
  /-- `spill_cell_to_anchor` (315). -/
  owner : Cell → Option Nat := fun _ => none
  /-- `spill_anchor_to_cells` (314). -/
  cells : Nat → Option (List Cell) := fun _ => none
  /-- `spill_cells_by_sheet` (316). -/
  idx : Nat → List ((Nat × Nat) × Nat) := fun _ => []

/-- graph/mod.rs 1849-1925 `set_cell_value`. -/
def setCellValue (g : Graph) (c : Cell) (v : Val) : Graph :=
  match g.at' c with
  | some id =>
    { g with
      fml := if g.kind id = .formula then put g.fml id none else g.fml
      kind := put g.kind id .cell
      val := put g.val id (if g.cache then some v else none) }
  | none =>
    { g with
      at' := put g.at' c (some g.next)
      pos := put g.pos g.next (some c)
      kind := put g.kind g.next .cell
      val := if g.cache then put g.val g.next (some v) else g.val
      next := g.next + 1 }

/-- graph/mod.rs 2140-2329 `set_cell_formula_with_plan`, the fields kept here. -/
def setCellFormula (g : Graph) (c : Cell) (f : Nat) : Graph :=
  match g.at' c with
  | some id =>
    { g with
      fml := put g.fml id (some f)
      kind := put g.kind id .formula
      val := put g.val id none }
  | none =>
    { g with
      at' := put g.at' c (some g.next)
      pos := put g.pos g.next (some c)
      kind := put g.kind g.next .formula
      fml := put g.fml g.next (some f)
      val := put g.val g.next none
      next := g.next + 1 }

/-- graph/mod.rs 3331-3341 `update_vertex_value`. -/
def updateVertexValue (g : Graph) (id : Nat) (v : Val) : Graph :=
  if !g.cache && (g.pos id).isSome then { g with val := put g.val id none }
  else { g with val := put g.val id (some v) }

/-- graph/mod.rs 2608-2628 `get_cell_value`. -/
def getCellValue (g : Graph) (c : Cell) : Option Val :=
  if !g.cache then none else (g.at' c).bind g.val

/-- The reasons of refusal, graph/mod.rs 3391-3446. -/
inductive Blocked
  | spill
  | formula
  | value
deriving DecidableEq, Repr

/-- One target cell of a plan, graph/mod.rs 3391-3446; `allow` is `overwritable_formulas`. -/
def planCell (g : Graph) (anchor : Nat) (allow : Nat → Bool) (c : Cell) : Option Blocked :=
  match g.owner c with
  | some a => if a = anchor then none else some .spill
  | none =>
    match g.at' c with
    | none => none
    | some id =>
      if id = anchor then none
      else if g.kind id = .formula then (if allow id then none else some .formula)
      else match g.val id with
        | some .empty => none
        | none => none
        | some _ => some .value

/-- graph/mod.rs 3355-3448 `plan_spill_region_allowing_formula_overwrite`: the first blocking cell decides. -/
def plan (g : Graph) (anchor : Nat) (targets : List Cell) (allow : Nat → Bool) : Option Blocked :=
  targets.findSome? (planCell g anchor allow)

/-- graph/mod.rs 3490-3535: clears first, then the writes row by row from the first target cell. -/
def commitOps (prev targets : List Cell) (values : List (List Val)) : List (Cell × Val) :=
  (prev.filter fun c => !targets.contains c).map (fun c => (c, Val.empty)) ++
  match targets with
  | [] => []
  | first :: _ =>
    values.zipIdx.flatMap fun (row, r) => row.zipIdx.map fun (v, c) => (⟨first.sheet, first.row + r, first.col + c⟩, v)

/-- graph/mod.rs 3573-3579 (and 3564-3569 for the rollback): one write, the anchor's cell apart. -/
def writeOp (anchor : Nat) (home : Cell) (g : Graph) (op : Cell × Val) : Graph :=
  if op.1 = home then updateVertexValue g anchor op.2 else setCellValue g op.1 op.2

/-- graph/mod.rs 3584-3598: forget the ownership of cells, in both maps. -/
def disown (g : Graph) (cs : List Cell) : Graph :=
  cs.foldl (fun g c =>
    { g with
      owner := put g.owner c none
      idx := put g.idx c.sheet ((g.idx c.sheet).filter fun e => e.1 ≠ (c.row, c.col)) }) g

/-- graph/mod.rs 3600-3606: record the ownership of cells, in both maps. -/
def own (g : Graph) (anchor : Nat) (cs : List Cell) : Graph :=
  cs.foldl (fun g c =>
    { g with
      owner := put g.owner c (some anchor)
      idx := put g.idx c.sheet (((c.row, c.col), anchor) :: (g.idx c.sheet).filter fun e => e.1 ≠ (c.row, c.col)) }) g

/-- graph/mod.rs 3456-3609 `commit_spill_region_atomic_with_fault`; the flag tells success.  `home` is the anchor's
cell.  A fault number at or beyond the number of writes never fires, as in the source. -/
def commit (g : Graph) (anchor : Nat) (home : Cell) (targets : List Cell) (values : List (List Val))
    (fault : Option Nat) : Graph × Bool :=
  let prev := (g.cells anchor).getD []
  let ops := commitOps prev targets values
  let old := ops.map fun op => (op.1, (getCellValue g op.1).getD .empty)
  match fault with
  | some n =>
    if n < ops.length then
      let g1 := (ops.take n).foldl (writeOp anchor home) g
      ((old.take n).reverse.foldl (writeOp anchor home) g1, false)
    else
      let g1 := ops.foldl (writeOp anchor home) g
      let g2 := disown g1 (prev.filter fun c => !targets.contains c)
      let g3 := own g2 anchor targets
      ({ g3 with cells := put g3.cells anchor (some targets) }, true)
  | none =>
    let g1 := ops.foldl (writeOp anchor home) g
    let g2 := disown g1 (prev.filter fun c => !targets.contains c)
    let g3 := own g2 anchor targets
    ({ g3 with cells := put g3.cells anchor (some targets) }, true)

/-- graph/mod.rs 3675-3697: one child of a region being cleared. -/
def clearChild (home : Option Cell) (g : Graph) (c : Cell) : Graph :=
  if home = some c then g
  else match g.at' c with
    | none => g
    | some id =>
      { g with
        fml := put g.fml id none
        kind := put g.kind id .cell
        val := put g.val id (if g.cache then some .empty else none) }

/-- graph/mod.rs 3645-3705 `clear_spill_region_bulk`. -/
def clear (g : Graph) (anchor : Nat) : Graph :=
  match g.cells anchor with
  | none => g
  | some cs =>
    let g1 := disown { g with cells := put g.cells anchor none } cs
    cs.foldl (clearChild (g.pos anchor)) g1

/-- graph/mod.rs 1547-1567 `spill_anchors_in_region` (the final sort is left out, duplicates are removed). -/
def anchorsInRegion (g : Graph) (sheet r0 c0 r1 c1 : Nat) : List Nat :=
  (((g.idx sheet).filter fun e =>
      decide (r0 ≤ e.1.1) && decide (e.1.1 ≤ r1) && decide (c0 ≤ e.1.2) && decide (e.1.2 ≤ c1)).map Prod.snd).dedup

/-! ## The evaluation step -/

/-- The engine, as far as spills go: graph, reservations, and the three layers of the value store. -/
structure Engine where
  g : Graph := {}
  shim : Shim := {}
  base : Cell → Val := fun _ => .empty
  comp : Cell → Option Val := fun _ => none
  user : Cell → Option Val := fun _ => none

/-- arrow_store/mod.rs 3689-3711: user edits over computed values over the base. -/
def read (e : Engine) (c : Cell) : Val :=
  match e.user c with
  | some v => v
  | none => match e.comp c with
    | some v => v
    | none => e.base c

/-- eval.rs 16751-16790 `Engine::set_cell_value`: graph, then the user overlay; the computed entry goes (15378 ff.). -/
def userValue (e : Engine) (c : Cell) (v : Val) : Engine :=
  { e with
    g := setCellValue e.g c v
    user := put e.user c (some v)
    comp := put e.comp c none }

/-- eval.rs 17023-17064 `Engine::set_cell_formula`: graph, then the user overlay entry is removed. -/
def userFormula (e : Engine) (c : Cell) (f : Nat) : Engine :=
  { e with
    g := setCellFormula e.g c f
    user := put e.user c none }

/-- eval.rs 23249-23285 and 25640-25673: with the graph cache off, some target holds a value in the store. -/
def probeBlocked (e : Engine) (anchor : Nat) (home : Cell) (targets : List Cell) : Bool :=
  !e.g.cache && targets.any fun c =>
    !(c == home) && (e.g.owner c).isNone &&
    !(match e.g.at' c with
      | some id => decide (id ≠ anchor) && decide (e.g.kind id = .formula)
      | none => false) &&
    decide (read e c ≠ .empty)

/-- eval.rs 25477-25492: the k-th target gets `rows[k / width][k % width]` (indexing beyond the rows would panic; the
caller builds `targets` from the shape, so it does not happen for rectangular rows; here it yields `empty`). -/
def valueAt (rows : List (List Val)) (k : Nat) : Val :=
  let w := (rows.headD []).length
  ((rows.getD (k / w) []).getD (k % w) .empty)

/-- eval.rs 25456-25493: mirror clears and writes into the computed overlay. -/
def mirrorCommit (comp : Cell → Option Val) (prev targets : List Cell) (rows : List (List Val)) : Cell → Option Val :=
  let c1 := (prev.filter fun c => !targets.contains c).foldl (fun m c => put m c (some .empty)) comp
  if rows.isEmpty || (rows.headD []).isEmpty then c1
  else targets.zipIdx.foldl (fun m (c, k) => put m c (some (valueAt rows k))) c1

/-- eval.rs 25358-25495 `commit_spill_and_mirror` with 23193-23298 `commit_array_with_value_probe` inlined: plan again,
probe the store, commit, give the reservation back; then mirror.  `false` is the error result. -/
def commitAndMirror (e : Engine) (anchor : Nat) (home : Cell) (targets : List Cell) (rows : List (List Val))
    (allow : Nat → Bool) : Engine × Bool :=
  let prev := (e.g.cells anchor).getD []
  let released := { e with shim := releaseOwner e.shim anchor }
  if (plan e.g anchor targets allow).isSome then (released, false)
  else if probeBlocked e anchor home targets then (released, false)
  else
    ({ released with
       g := (commit e.g anchor home targets rows none).1
       comp := mirrorCommit e.comp prev targets rows }, true)

/-- The three effects, engine/effects.rs. -/
inductive Effect
  | writeCell (id : Nat) (v : Val)
  | spillClear (anchor : Nat)
  | spillCommit (anchor : Nat) (targets : List Cell) (rows : List (List Val))
deriving DecidableEq, Repr

/-- eval.rs 25712-25738 `plan_spill_error_effects`. -/
def errorEffects (id : Nat) : List Effect := [.spillClear id, .writeCell id .spillErr]

/-- eval.rs 25602-25611: the target cells, row by row. -/
def rect (home : Cell) (h w : Nat) : List Cell :=
  (List.range h).flatMap fun r => (List.range w).map fun c => ⟨home.sheet, home.row + r, home.col + c⟩

/-- eval.rs 25568-25710 `plan_array_effects`. -/
def planArray (maxCells : Nat) (e : Engine) (id : Nat) (home : Cell) (rows : List (List Val)) (allow : Nat → Bool) :
    Engine × List Effect :=
  let e := { e with g := { e.g with kind := put e.g.kind id .formula } }
  let h := rows.length
  let w := (rows.headD []).length
  if h * w > maxCells then (e, errorEffects id)
  else if satAdd home.row h - 1 > 1048575 || satAdd home.col w - 1 > 16383 then (e, errorEffects id)
  else
    let targets := rect home h w
    match shimReserve e.shim id home.sheet home.row home.col h w with
    | (s, false) => ({ e with shim := s }, errorEffects id)
    | (s, true) =>
      let e := { e with shim := s }
      if (plan e.g id targets allow).isSome then (e, errorEffects id)
      else if probeBlocked e id home targets then (e, errorEffects id)
      else
        let topLeft := (rows.headD []).headD .empty
        let clears := match e.g.cells id with
          | some (_ :: _) => [Effect.spillClear id]
          | _ => []
        (e, clears ++ [.spillCommit id targets rows, .writeCell id topLeft])

/-- eval.rs 25548-25566 `plan_scalar_effects`. -/
def planScalar (e : Engine) (id : Nat) (v : Val) : List Effect :=
  match e.g.cells id with
  | some (_ :: _) => [.spillClear id, .writeCell id v]
  | _ => [.writeCell id v]

/-- eval.rs 25784-25935: apply one effect; `false` is an error returned to the caller of the evaluation. -/
def applyEffect (e : Engine) : Effect → Engine × Bool
  | .writeCell id v =>
    ({ e with
       g := updateVertexValue e.g id v
       comp := match e.g.pos id with
         | some c => put e.comp c (some v)
         | none => e.comp }, true)
  | .spillClear id =>
    match e.g.cells id with
    | some (c :: cs) =>
      ({ e with
         g := clear e.g id
         comp := (c :: cs).foldl (fun m c => put m c (some .empty)) e.comp }, true)
    | _ => (e, true)
  | .spillCommit id targets rows =>
    match e.g.pos id with
    | some home => commitAndMirror e id home targets rows (fun _ => false)
    | none => (e, false)

/-- Apply effects in order, stopping at the first error (eval.rs 26077-26086 and the other layer loops). -/
def applyEffects (e : Engine) : List Effect → Engine × Bool
  | [] => (e, true)
  | x :: xs => match applyEffect e x with
    | (e', true) => applyEffects e' xs
    | (e', false) => (e', false)

/-- What a formula produced. -/
inductive Result
  | scalar (v : Val)
  | array (rows : List (List Val))

/-- eval.rs 25515-25546 `plan_vertex_effects` followed by the application of its effects: one formula vertex with its
computed value.  `allow` is the set of vertices of the same layer in the parallel loops (26286, 26325), nothing in the
sequential ones (26037, 26077).  A vertex without a cell is left out (`expect` in the source). -/
def evalVertex (maxCells : Nat) (allow : Nat → Bool) (e : Engine) (id : Nat) (r : Result) : Engine × Bool :=
  match e.g.pos id with
  | none => (e, true)
  | some home =>
    if e.g.kind id = .formula then
      match r with
      | .scalar v => applyEffects e (planScalar e id v)
      | .array rows =>
        let p := planArray maxCells e id home rows allow
        applyEffects p.1 p.2
    else
      match e.g.owner home with
      | some a => if a = id then applyEffects e [.writeCell id (match r with | .scalar v => v | .array _ => .empty)]
                  else (e, true)
      | none => applyEffects e [.writeCell id (match r with | .scalar v => v | .array _ => .empty)]

/-- Rows inserted before `before` (0-based) on a sheet: graph/editor/vertex_editor.rs 910-1010 moves the vertices
(`move_vertex` 769-808: store position and `cell_to_vertex`, nothing else), eval.rs 14750-14790 moves the stored values
and drops the computed overlay from the insertion point on.  The three spill maps are not touched by either. -/
def insertRows (e : Engine) (sheet before count : Nat) : Engine :=
  let mv : Cell → Cell := fun c => if c.sheet = sheet ∧ before ≤ c.row then { c with row := c.row + count } else c
  let back {α : Type} (none' : α) (m : Cell → α) : Cell → α := fun c =>
    if c.sheet = sheet ∧ before ≤ c.row then (if c.row < before + count then none' else m { c with row := c.row - count })
    else m c
  { e with
    g := { e.g with
      at' := back none e.g.at'
      pos := fun id => (e.g.pos id).map mv }
    base := back .empty e.base
    user := back none e.user
    comp := fun c => if c.sheet = sheet ∧ before ≤ c.row then none else e.comp c }

end Verif.Spill

import Verif.Dirty.Model
import Verif.Sched.Condense

/-!
# Recalculation

`crates/formualizer-eval/src/engine/eval.rs`: `evaluate_all`, target evaluation, recalculation plans, the schedule cache,
layer evaluation; `virtual_deps.rs`; and the two edits of `graph/mod.rs` that recalculation has to follow
(`set_cell_value`, `set_cell_formula`).

What is abstracted:
* A formula is what evaluation and scheduling see of it: the dependencies recorded for it and a function from the cell
  values to its result. A result is one value; array results are in `Verif.Spill`.
* A vertex is a number. A cell that has no vertex yet is a value vertex.
* A compressed range is the list of vertices inside it; the extent of an open range is fixed.
* Cycles are handled by the static policy (`CycleDetection::Static`).
* No formula plane spans, no cancellation, no resource limits, no deferred graph building.
* Names are defined before the first edit.
Dirty propagation and scheduling are the models of `Verif.Dirty` and `Verif.Sched`.
-/

namespace Verif.Recalc

open Verif.Sched (upd sortNat dedupSorted Schedule Orders)

/-- `VertexKind` (vertex.rs): cells and empty cells are `value`, both formula kinds are `formula`, both name kinds are
`name`. -/
inductive Kind
  | value
  | formula
  | name
  deriving DecidableEq

/-- What is recorded for a formula, and what it computes. -/
structure Formula (α : Type) where
  /-- edges of the graph -/
  deps : List Nat
  /-- vertices inside its compressed ranges -/
  ranges : List Nat
  /-- `get_range_dependencies(v).is_some()` -/
  hasRange : Bool
  volatile : Bool
  dynamic : Bool
  /-- the value at a clock sample, from the cell values -/
  sem : Nat → (Nat → α) → α
  /-- vertices of single cells and names met while evaluating with the collector (virtual_deps.rs 122-145, 260-289) -/
  cells : (Nat → α) → List Nat
  /-- vertices inside the ranges met while evaluating with the collector -/
  areas : (Nat → α) → List Nat

/-- What a vertex without formula carries. -/
def Formula.empty {α : Type} : Formula α :=
  { deps := []
    ranges := []
    hasRange := false
    volatile := false
    dynamic := false
    sem := fun _ σ => σ 0
    cells := fun _ => []
    areas := fun _ => [] }

structure Book (α : Type) where
  vertices : List Nat
  kind : Nat → Kind
  body : Nat → Formula α
  /-- `volatile_vertices`, and the volatile flags of the store -/
  volatile : List Nat
  /-- the dynamic flags of the store -/
  dynamic : Nat → Bool
  /-- the `#CIRC!` error -/
  circ : α

/-- graph/mod.rs 2801-2809: formula and name kinds are evaluated. -/
def Book.isF {α : Type} (b : Book α) (v : Nat) : Bool := b.kind v != .value

/-- The graph as dirty propagation sees it. Names bound to a cell have an edge to it (names.rs 781-784), so they are in
`direct`. -/
def Book.graph {α : Type} (b : Book α) : Dirty.Graph Nat :=
  { vertices := b.vertices
    isFormula := b.isF
    direct := fun u => b.vertices.filter fun v => decide (u ∈ (b.body v).deps)
    nameDeps := fun _ => []
    rangeDeps := fun u => b.vertices.filter fun v => decide (u ∈ (b.body v).ranges)
    exists_ := fun _ => true }

/-- The graph as the scheduler sees it. -/
def Book.sgraph {α : Type} (b : Book α) : Sched.Graph := ⟨fun v => (b.body v).deps, b.graph.direct⟩

/-- The cached schedule, eval.rs 1847-1851 `CachedScheduleEntry`. -/
structure Cache where
  epoch : Nat
  candidates : List Nat
  schedule : Schedule

structure Engine (α : Type) where
  book : Book α
  /-- the value every cell shows -/
  store : Nat → α
  dirty : Dirty.State Nat
  /-- `topology_epoch` -/
  epoch : Nat
  /-- `cached_static_schedule` -/
  cache : Option Cache
  /-- the clock sample of the last request (eval.rs 3524-3534 `begin_evaluation_request`) -/
  clock : Nat

/-- What may differ from run to run: hash orders, and whether there is a thread pool. -/
structure Config where
  orders : Orders
  threads : Bool

variable {α : Type}

/-! ## Edits -/

/-- `mark_dirty_many` on the engine. The bound inside `markDirtyMany` is never hit (`Verif.Dirty.mark_terminates`). -/
def mark (e : Engine α) (vs : List Nat) : Engine α :=
  match Dirty.markDirtyMany e.book.graph e.dirty vs with
  | some (s, _) => { e with dirty := s }
  | none => e

/-- eval.rs 5386-5393 `mark_topology_edited`. -/
def markTopology (e : Engine α) : Engine α := { e with epoch := e.epoch + 1, cache := none }

/-- graph/mod.rs 4213-4220 `set_dirty(v, true)`: no propagation. -/
def setDirty (s : Dirty.State Nat) (v : Nat) : Dirty.State Nat :=
  { s with flags := v :: s.flags, dirtySet := v :: s.dirtySet }

def addVertex (vs : List Nat) (v : Nat) : List Nat := if v ∈ vs then vs else v :: vs

/-- graph/mod.rs 1849-1925 `set_cell_value` on the book: the edges go if it was a formula; the volatile and dynamic flags
stay. -/
def Book.setValue (b : Book α) (v : Nat) : Book α :=
  { b with
    vertices := addVertex b.vertices v
    kind := upd b.kind v .value
    body := upd b.body v .empty }

/-- graph/mod.rs 2245-2330 `set_cell_formula` on the book; the dependency plan creates missing vertices for the
dependencies (placeholders). -/
def Book.setFormula (b : Book α) (v : Nat) (f : Formula α) : Book α :=
  { b with
    vertices := f.deps.foldl addVertex (addVertex b.vertices v)
    kind := upd b.kind v .formula
    body := upd b.body v f
    volatile := if f.volatile then addVertex b.volatile v else b.volatile.filter (· ≠ v)
    dynamic := upd b.dynamic v f.dynamic }

/-- eval.rs 16757-16795 `set_cell_value`: the topology is marked only if a formula was replaced. -/
def setValue (e : Engine α) (v : Nat) (a : α) : Engine α :=
  let e1 := mark { e with book := e.book.setValue v, store := upd e.store v a } [v]
  if e.book.kind v = .formula then markTopology e1 else e1

/-- The formula edit without the topology mark: graph/mod.rs 2245-2330, eval.rs 17043-17059. The cached value is removed;
what the cell shows until it is evaluated is `old`. -/
def putFormula (e : Engine α) (v : Nat) (f : Formula α) (old : α) : Engine α :=
  mark { e with book := e.book.setFormula v f, store := upd e.store v old } [v]

/-- eval.rs 17023-17064 `set_cell_formula`; `none` is the self-reference error of graph/mod.rs 2270-2275, which bulk
loading does not make. -/
def setFormula (bulk : Bool) (e : Engine α) (v : Nat) (f : Formula α) (old : α) : Option (Engine α) :=
  if bulk = false ∧ v ∈ f.deps then none else some (markTopology (putFormula e v f old))

/-! ## Schedules -/

/-- `get_evaluation_vertices`, sorted. -/
def candidates (e : Engine α) : List Nat :=
  sortNat (Dirty.evaluationVertices e.book.graph (fun v => decide (v ∈ e.book.vertices)) e.dirty e.book.volatile)

/-- virtual_deps.rs 350-360 and 427-470: a formula that is dirty or volatile. -/
def pending (e : Engine α) (u : Nat) : Bool :=
  decide (e.book.kind u = .formula) && (decide (u ∈ e.dirty.flags) || decide (u ∈ e.book.volatile))

/-- virtual_deps.rs 331-378 `RangeVirtualDepProvider::get_virtual_deps`. -/
def rangeVDeps (e : Engine α) (v : Nat) : List Nat :=
  (e.book.body v).ranges.filter fun u => pending e u && decide (u ≠ v)

/-- virtual_deps.rs 422-470 `DynamicRefVirtualDepProvider::collect`: existing vertices of single cells, and pending
formulas inside ranges (66-118). -/
def dynVDeps (e : Engine α) (v : Nat) : List Nat :=
  if e.book.dynamic v then
    (((e.book.body v).cells e.store).filter (fun u => decide (u ∈ e.book.vertices)) ++
      ((e.book.body v).areas e.store).filter (pending e)).filter fun u => decide (u ≠ v)
  else []

/-- virtual_deps.rs 390-415 `build` for one candidate. -/
def vdepsOf (e : Engine α) (v : Nat) : List Nat := dedupSorted (sortNat (rangeVDeps e v ++ dynVDeps e v))

/-- The map `build` returns for the candidates; an absent key is the empty list. -/
def vdeps (e : Engine α) (S : List Nat) : Sched.VDeps := fun v => if v ∈ S then vdepsOf e v else []

/-- eval.rs 21800-21845 `create_evaluation_schedule_uncached` (`augmented` is always empty, virtual_deps.rs 396). -/
def scheduleUncached (c : Config) (e : Engine α) (S : List Nat) : Sched.Res Schedule :=
  if S.all fun v => vdepsOf e v == [] then Sched.createSchedule c.orders e.book.sgraph S
  else Sched.createScheduleVirtual c.orders e.book.sgraph (vdeps e S) S

/-- eval.rs 21847-21852 `can_use_static_schedule_cache`. -/
def cacheable (e : Engine α) (S : List Nat) : Bool :=
  decide (S ≠ []) && S.all fun v => !e.book.dynamic v && !(e.book.body v).hasRange

/-- eval.rs 21756-21798 `create_evaluation_schedule`: the schedule, the virtual dependencies used, and the cache
afterwards. -/
def schedule (c : Config) (e : Engine α) (S : List Nat) : Sched.Res (Schedule × Sched.VDeps × Option Cache) :=
  let fresh := scheduleUncached c e S
  if cacheable e S then
    match e.cache with
    | some k =>
      if k.epoch = e.epoch ∧ k.candidates = S then .ok (k.schedule, fun _ => [], e.cache)
      else
        match fresh with
        | .ok s => .ok (s, vdeps e S, if S.all fun v => vdepsOf e v == [] then some ⟨e.epoch, S, s⟩ else e.cache)
        | .circ => .circ
        | .broken => .broken
    | none =>
      match fresh with
      | .ok s => .ok (s, vdeps e S, if S.all fun v => vdepsOf e v == [] then some ⟨e.epoch, S, s⟩ else e.cache)
      | .circ => .circ
      | .broken => .broken
  else
    match fresh with
    | .ok s => .ok (s, vdeps e S, e.cache)
    | .circ => .circ
    | .broken => .broken

/-! ## Running a schedule -/

/-- `evaluate_vertex_immutable`, eval.rs 22809-22960, on the values visible to it. -/
def evalV (b : Book α) (clock : Nat) (v : Nat) (σ : Nat → α) : α := (b.body v).sem clock σ

/-- eval.rs 26018-26048 `evaluate_small_layer_direct_effects`: each result is visible to the next vertex. -/
def runDirect (b : Book α) (clock : Nat) (layer : List Nat) (σ : Nat → α) : Nat → α :=
  layer.foldl (fun σ v => upd σ v (evalV b clock v σ)) σ

/-- `flush_computed_write_buffer`: writes in order. -/
def flush (buf : List (Nat × α)) (σ : Nat → α) : Nat → α := buf.foldl (fun σ p => upd σ p.1 p.2) σ

/-- eval.rs 26065-26100: results wait in a buffer, flushed before every vertex with range dependencies (25990-25999) and
at the end. -/
def runBuffered (b : Book α) (clock : Nat) (layer : List Nat) (σ : Nat → α) : Nat → α :=
  let r := layer.foldl (fun (st : (Nat → α) × List (Nat × α)) v =>
    let st := if (b.body v).hasRange then (flush st.2 st.1, []) else st
    (st.1, st.2 ++ [(v, evalV b clock v st.1)])) (σ, [])
  flush r.2 r.1

/-- One group of eval.rs 26287-26380: all members see the same values, the results are written afterwards. -/
def runGroup (b : Book α) (clock : Nat) (group : List Nat) (σ : Nat → α) : Nat → α :=
  flush (group.map fun v => (v, evalV b clock v σ)) σ

/-- eval.rs 26268-26386 `evaluate_layer_parallel_effects`: vertices without range dependencies, then the others. -/
def runParallel (b : Book α) (clock : Nat) (layer : List Nat) (σ : Nat → α) : Nat → α :=
  runGroup b clock (layer.filter fun v => (b.body v).hasRange)
    (runGroup b clock (layer.filter fun v => !(b.body v).hasRange) σ)

/-- eval.rs 21150-21155 and 26055-26064; the width 8 is eval.rs 655. -/
def runLayer (c : Config) (b : Book α) (clock : Nat) (layer : List Nat) (σ : Nat → α) : Nat → α :=
  if c.threads = true ∧ layer.length > 1 then runParallel b clock layer σ
  else if layer.length < 8 then runDirect b clock layer σ
  else runBuffered b clock layer σ

/-- eval.rs 24580-24605 `apply_cycle_outcome` (static policy) without filter. -/
def stampCycle (b : Book α) (cycle : List Nat) (σ : Nat → α) : Nat → α := cycle.foldl (fun σ v => upd σ v b.circ) σ

/-- One unit of eval.rs 21141-21157 `legacy_pass_run_units`. -/
def runStep (c : Config) (b : Book α) (clock : Nat) (σ : Nat → α) (u : Bool × List Nat) : Nat → α :=
  if u.1 then stampCycle b u.2 σ else runLayer c b clock u.2 σ

/-- `legacy_pass_run_units`; `Schedule.steps` looks up the units. -/
def runUnits (c : Config) (b : Book α) (clock : Nat) (s : Schedule) (σ : Nat → α) : Nat → α :=
  s.steps.foldl (runStep c b clock) σ

/-! ## Requests -/

inductive Outcome (α : Type)
  | done (e : Engine α)
  /-- `replan_exhausted_error` -/
  | exhausted (e : Engine α)
  /-- the schedule could not be built -/
  | failed

/-- eval.rs 21940-21975 `changed_virtual_dep_vertices`; `e` is the engine after the pass, flags not yet cleared. `keys`
contains the keys of both maps; a key with equal entries is not reported. -/
def changedVDeps (e : Engine α) (S keys : List Nat) (old : Sched.VDeps) : List Nat :=
  if S.any fun v => e.book.dynamic v then keys.filter fun v => old v != vdeps e S v else []

/-- One turn of the loops of eval.rs 21239-21285 and 18414-18467: run the schedule, look for changed virtual
dependencies, clear the flags, mark the changed ones. -/
def runPass (c : Config) (e : Engine α) (S keys : List Nat) (s : Schedule) (vd : Sched.VDeps) : Engine α × List Nat :=
  let e1 := { e with store := runUnits c e.book e.clock s e.store }
  let changed := changedVDeps e1 S keys vd
  ({ e1 with dirty := changed.foldl setDirty (Dirty.clearDirty e1.dirty S) }, changed)

/-- eval.rs 21239-21285: the loop of `evaluate_all_legacy_impl`. The number counts the replans left. -/
def evalLoop (c : Config) : Nat → Engine α → Outcome α
  | n, e =>
    let S := candidates e
    if S = [] then .done e
    else
      match schedule c e S with
      | .ok (s, vd, cache) =>
        let r := runPass c { e with cache := cache } S S s vd
        if r.2 = [] then .done r.1
        else
          match n with
          | 0 => .exhausted r.1
          | n + 1 => evalLoop c n r.1
      | _ => .failed

/-- eval.rs 3544-3570 `redirty_for_next_recalc` (nothing iterates under the static policy). -/
def redirty (e : Engine α) : Engine α := mark e e.book.volatile

/-- eval.rs 21094-21302 `evaluate_all` at a clock sample. -/
def evaluateAll (c : Config) (now : Nat) (e : Engine α) : Outcome α :=
  match evalLoop c 5 { e with clock := now } with
  | .done e => .done (redirty e)
  | r => r

/-! ## Targets -/

/-- The graph `build_demand_subgraph` walks: from a vertex to its dependencies and virtual dependencies. -/
def demandGraph (e : Engine α) : Dirty.Graph Nat :=
  { vertices := e.book.vertices
    isFormula := e.book.isF
    direct := fun v => (e.book.body v).deps ++ vdepsOf e v
    nameDeps := fun _ => []
    rangeDeps := fun _ => []
    exists_ := fun _ => true }

/-- eval.rs 22012-22030: which visited vertices are scheduled. -/
def demanded (e : Engine α) (v : Nat) : Bool :=
  match e.book.kind v with
  | .value => false
  | .formula => decide (v ∈ e.dirty.flags) || decide (v ∈ e.book.volatile)
  | .name => true

/-- eval.rs 21978-22071 `build_demand_subgraph`: the scheduled vertices, the visited ones, the virtual dependencies. The
loop 22001-22056 pops a vertex, skips it if visited, and pushes its neighbours: the same loop as in `mark_dirty_many`.
`none` if the step bound is hit, which does not happen (`demand_some`). -/
def demand (e : Engine α) (roots : List Nat) : Option (List Nat × List Nat × Sched.VDeps) :=
  match Dirty.propagate (demandGraph e) (Dirty.stepBound (demandGraph e) roots.reverse) roots.reverse [] with
  | none => none
  | some visited => some (sortNat (visited.filter (demanded e)), visited, vdeps e visited)

/-- eval.rs 18414-18467: the loop of `evaluate_legacy_target_roots`. -/
def targetLoop (c : Config) (roots : List Nat) : Nat → Engine α → Outcome α
  | n, e =>
    match demand e roots with
    | none => .failed
    | some (S, visited, vd) =>
      if S = [] then .done e
      else
        match Sched.createScheduleVirtual c.orders e.book.sgraph vd S with
        | .ok s =>
          let r := runPass c e S visited s vd
          if r.2 = [] then .done r.1
          else
            match n with
            | 0 => .exhausted r.1
            | n + 1 => targetLoop c roots n r.1
        | _ => .failed

/-- eval.rs 18395-18475 `evaluate_legacy_target_roots` at a clock sample. -/
def evaluateTargets (c : Config) (now : Nat) (e : Engine α) (roots : List Nat) : Outcome α :=
  match targetLoop c roots 5 { e with clock := now } with
  | .done e => .done (redirty e)
  | r => r

/-! ## Plans -/

/-- eval.rs 2150-2165 `RecalcPlan` of kind `CompatibilityFull`; of the key only the topology epoch matters here. -/
structure Plan where
  epoch : Nat
  schedule : Schedule
  dynamic : Bool

/-- The formula cells, `vertices_with_formulas` (graph/mod.rs 4309-4312): names are not among them. -/
def formulaCells (e : Engine α) : List Nat := sortNat (e.book.vertices.filter fun v => decide (e.book.kind v = .formula))

/-- eval.rs 18477-18510 `build_recalc_plan`. -/
def buildPlan (c : Config) (e : Engine α) : Sched.Res Plan :=
  match scheduleUncached c e (formulaCells e) with
  | .ok s => .ok ⟨e.epoch, s, (formulaCells e).any fun v => e.book.dynamic v⟩
  | .circ => .circ
  | .broken => .broken

/-- The steps of a plan with the formulas that are not dirty left out; a layer that becomes empty is skipped
(18632-18657, and 24592-24600 for cycles). -/
def planSteps (D : List Nat) (steps : List (Bool × List Nat)) : List (Bool × List Nat) :=
  (steps.map fun u => (u.1, u.2.filter fun v => decide (v ∈ D))).filter fun u => decide (u.2 ≠ [])

/-- eval.rs 18574-18670 `evaluate_recalc_plan` at a clock sample; `none` if the plan is stale. -/
def evaluatePlan (c : Config) (now : Nat) (e : Engine α) (p : Plan) : Option (Outcome α) :=
  if p.epoch ≠ e.epoch then none
  else if p.dynamic then some (evaluateAll c now e)
  else
    let e := { e with clock := now }
    let D := candidates e
    if D = [] then some (.done e)
    else
      let σ := (planSteps D p.schedule.steps).foldl (runStep c e.book e.clock) e.store
      some (.done (redirty { e with store := σ, dirty := Dirty.clearDirty e.dirty D }))

end Verif.Recalc

/-!
# Model of dirty propagation

`crates/formualizer-eval/src/engine/graph/mod.rs`: `mark_dirty`, `mark_dirty_many`, `begin_deferred_dirty`,
`end_deferred_dirty`, `get_evaluation_vertices`, `clear_dirty_flags`, `redirty_volatiles`.

The dependents of a vertex are given by three functions: direct edges (`dependents_slice`/`get_dependents`, the
edge store is modelled in `Verif.Edges`), names bound to a cell (`cell_to_name_dependents`) and range dependents
(`collect_range_dependents_for_vertex`, modelled in `Verif.Stripes`).  Hash sets are lists; only membership is
used.  A stack is a list with its top first.
-/

namespace Verif.Dirty

variable {V : Type} [DecidableEq V]

/-- What propagation reads of the graph. -/
structure Graph (V : Type) where
  /-- all vertices (only used to bound the number of steps) -/
  vertices : List V
  /-- kind is FormulaScalar, FormulaArray, NamedScalar or NamedArray -/
  isFormula : V → Bool
  direct : V → List V
  nameDeps : V → List V
  rangeDeps : V → List V
  /-- `vertex_exists` -/
  exists_ : V → Bool

/-- graph/mod.rs: dirty flags in the store, the dirty set, and the deferred scope. -/
structure State (V : Type) where
  flags : List V := []
  dirtySet : List V := []
  depth : Nat := 0
  pending : List V := []

/-- graph/mod.rs 2700-2720: the `while let Some(id) = to_visit.pop()` loop. `none` means the step bound was hit;
`mark_terminates` shows that this does not happen. -/
def propagate (g : Graph V) : Nat → List V → List V → Option (List V)
  | 0, _, _ => none
  | _ + 1, [], visited => some visited
  | fuel + 1, id :: stack, visited =>
    if id ∈ visited then propagate g fuel stack visited
    else propagate g fuel ((g.direct id ++ g.rangeDeps id).reverse ++ stack) (id :: visited)

/-- graph/mod.rs 2663-2698: what the loop over the sources pushes. -/
def seeds (g : Graph V) (sources : List V) : List V :=
  sources.flatMap fun v =>
    (if g.isFormula v then [v] else []) ++ g.direct v ++ g.nameDeps v ++ g.rangeDeps v

/-- Number of steps that always suffices. -/
def stepBound (g : Graph V) (stack : List V) : Nat :=
  stack.length + (g.vertices.map fun v => (g.direct v ++ g.rangeDeps v).length).sum + 1

/-- graph/mod.rs 2654-2728 `mark_dirty_many`: the new state and the affected vertices. -/
def markDirtyMany (g : Graph V) (s : State V) (sources : List V) : Option (State V × List V) :=
  if s.depth > 0 then some ({ s with pending := s.pending ++ sources }, sources)
  else
    let stack := (seeds g sources).reverse
    match propagate g (stepBound g stack) stack [] with
    | none => none
    | some visited =>
      let affected := visited ++ sources.filter fun v => !g.isFormula v
      some ({ s with flags := visited ++ s.flags, dirtySet := affected ++ s.dirtySet }, affected)

/-- graph/mod.rs 2631-2633 `mark_dirty`. -/
def markDirty (g : Graph V) (s : State V) (v : V) : Option (State V × List V) := markDirtyMany g s [v]

/-- graph/mod.rs 2755-2758 `begin_deferred_dirty`. -/
def beginDeferred (s : State V) : State V := { s with depth := s.depth + 1 }

/-- graph/mod.rs 2764-2784 `end_deferred_dirty` (the unmatched call is a debug assertion; in a release build the
depth stays 0). -/
def endDeferred (g : Graph V) (s : State V) : Option (State V × List V) :=
  let s := { s with depth := s.depth - 1 }
  if s.depth > 0 then some (s, [])
  else
    let pending := s.pending
    let s := { s with pending := [] }
    if pending = [] then some (s, [])
    else markDirtyMany g s (pending.filter g.exists_)

/-- graph/mod.rs 2792-2813 `get_evaluation_vertices`: the vertices (the code sorts them). `active` is
`vertex_exists_active`. -/
def evaluationVertices (g : Graph V) (active : V → Bool) (s : State V) (volatile : List V) : List V :=
  ((s.dirtySet ++ volatile).eraseDups).filter fun v => active v && g.isFormula v

/-- graph/mod.rs 2816-2821 `clear_dirty_flags`. -/
def clearDirty (s : State V) (vs : List V) : State V :=
  { s with flags := s.flags.filter (· ∉ vs), dirtySet := s.dirtySet.filter (· ∉ vs) }

end Verif.Dirty

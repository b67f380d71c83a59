import Verif.Sched.Kahn

/-!
# The evaluation scheduler

`crates/formualizer-eval/src/engine/scheduler.rs`. Vertices are naturals. A graph is its two edge views; the code reads
each through a borrowed slice when no edge change is pending and through an owned vector otherwise
(`dependencies_slice`/`get_dependencies`, graph/mod.rs 4028-4061), both returning the same list (proved for the edge
store: `Verif.Edges.refs_exact`). Hash map iteration order is an arbitrary function `order` on lists; the theorems
assume only that it permutes.
-/

namespace Verif.Sched

/-- The graph as the scheduler sees it. -/
structure Graph where
  deps : Nat → List Nat
  dependents : Nat → List Nat

/-- Per-pass virtual dependencies; an absent key is the empty list. -/
abbrev VDeps := Nat → List Nat

/-! ## Tarjan -/

/-- A DFS frame, scheduler.rs 265: the vertex and the dependencies not yet looked at (the code keeps the whole list
and an offset). -/
structure Frame where
  v : Nat
  rest : List Nat

/-- Local state of `tarjan_scc_impl`, scheduler.rs 243-266. Dense local ids and the arrays over them are functions on
vertices; `indices[v] == UNVISITED` is `index v = none` (so a schedule of 2^32-1 or more vertices is not covered). -/
structure TState where
  counter : Nat := 0
  index : Nat → Option Nat := fun _ => none
  low : Nat → Nat := fun _ => 0
  onStack : Nat → Bool := fun _ => false
  stack : List Nat := []
  frames : List Frame := []
  sccs : List (List Nat) := []

def upd {A : Type} (f : Nat → A) (v : Nat) (a : A) : Nat → A := fun x => if x = v then a else f x

/-- scheduler.rs 273-278 and 292-298: give the vertex the next index, push it, open its frame. -/
def visit (adj : Nat → List Nat) (s : TState) (v : Nat) : TState :=
  { s with
    index := upd s.index v (some s.counter)
    low := upd s.low v s.counter
    counter := s.counter + 1
    stack := v :: s.stack
    onStack := upd s.onStack v true
    frames := ⟨v, adj v⟩ :: s.frames }

/-- scheduler.rs 315-322: pop until the vertex itself has been popped. The code panics on an empty stack; the vertex
is always on it (`TInv.gray`). -/
def popTo (v : Nat) : List Nat → List Nat × List Nat
  | [] => ([], [])
  | w :: ws => if w = v then ([w], ws) else (w :: (popTo v ws).1, (popTo v ws).2)

/-- One iteration of the `while let` loop, scheduler.rs 280-334. -/
def tstep (S : List Nat) (adj : Nat → List Nat) (s : TState) : TState :=
  match s.frames with
  | [] => s
  | f :: fs =>
    match f.rest with
    | d :: rest =>
      let s := { s with frames := ⟨f.v, rest⟩ :: fs }
      if d ∉ S then s
      else
        match s.index d with
        | none => visit adj s d
        | some i => if s.onStack d = true ∧ i < s.low f.v then { s with low := upd s.low f.v i } else s
    | [] =>
      let s1 := if s.index f.v = some (s.low f.v) then
          { s with
            stack := (popTo f.v s.stack).2
            onStack := fun x => if x ∈ (popTo f.v s.stack).1 then false else s.onStack x
            sccs := s.sccs ++ [(popTo f.v s.stack).1] }
        else s
      match fs with
      | [] => { s1 with frames := [] }
      | p :: _ =>
        if s.low f.v < s.low p.v then { s1 with frames := fs, low := upd s1.low p.v (s.low f.v) }
        else { s1 with frames := fs }

/-- The `while let` loop with fuel; `tloop_done` shows the fuel used suffices. -/
def tloop (S : List Nat) (adj : Nat → List Nat) : Nat → TState → TState
  | 0, s => s
  | n + 1, s => if s.frames = [] then s else tloop S adj n (tstep S adj s)

/-- Enough fuel for any state: twice the requested vertices plus their dependencies. -/
def fuel (S : List Nat) (adj : Nat → List Nat) : Nat := (S.map fun v => (adj v).length + 2).sum

/-- scheduler.rs 268-336: one root. -/
def troot (S : List Nat) (adj : Nat → List Nat) (s : TState) (r : Nat) : TState :=
  if s.index r ≠ none then s else tloop S adj (fuel S adj) (visit adj s r)

/-- `tarjan_scc_impl`, scheduler.rs 195-339; the dependency list is the graph's followed by the virtual ones
(215-233). -/
def tarjan (S : List Nat) (adj : Nat → List Nat) : List (List Nat) := (S.foldl (troot S adj) {}).sccs

/-- scheduler.rs 215-233 `deps_of`. -/
def Graph.adj (g : Graph) (vd : VDeps) (v : Nat) : List Nat := g.deps v ++ vd v

/-! ## Separating cycles -/

/-- `separate_cycles`, scheduler.rs 647-664, with `has_self_loop` (graph/mod.rs 4038-4044): the cyclic components and
the others. -/
def isCyclic (g : Graph) (c : List Nat) : Bool :=
  decide (c.length > 1) || (match c with | [v] => decide (v ∈ g.deps v) | _ => false)

def cyclesOf (g : Graph) (sccs : List (List Nat)) : List (List Nat) := sccs.filter (isCyclic g)
def acyclicOf (g : Graph) (sccs : List (List Nat)) : List (List Nat) := sccs.filter fun c => !isCyclic g c

/-! ## Layers -/

/-- Sorting a layer (`sort`, `sort_unstable` on vertex ids): insertion sort. -/
def insertNat (x : Nat) : List Nat → List Nat
  | [] => [x]
  | y :: ys => if x ≤ y then x :: y :: ys else y :: insertNat x ys

def sortNat : List Nat → List Nat
  | [] => []
  | x :: xs => insertNat x (sortNat xs)

/-- Result of a layer construction. `circ` is the `#CIRC!` error; `broken` stands for an arithmetic underflow or an
endless loop, neither of which happens. -/
inductive Res (A : Type)
  | ok (a : A)
  | circ
  | broken
  deriving DecidableEq

/-- scheduler.rs 682-701: in-degrees inside the subset. -/
def inDeg (g : Graph) (vertices : List Nat) (v : Nat) : Option Nat :=
  if v ∈ vertices then some (vertices.count v * ((g.deps v).filter fun d => decide (d ∈ vertices)).length) else none

/-- The common tail: run the waves from the vertices of in-degree zero, sort each wave, compare the count. -/
def layersFrom (dec : Nat → Option Nat) (order : List Nat → List Nat) (vertices : List Nat) (deg : Nat → Option Nat)
    (outs : Nat → List Nat) : Res (List (List Nat)) :=
  match waves dec outs vertices.length deg (order (vertices.filter fun v => deg v == some 0)) with
  | none => .broken
  | some ws => if ws.flatten.length ≠ vertices.length then .circ else .ok (ws.map sortNat)

/-- `build_layers`, scheduler.rs 670-755. -/
def buildLayers (order : List Nat → List Nat) (g : Graph) (acyclic : List (List Nat)) : Res (List (List Nat)) :=
  let vertices := acyclic.flatten
  if vertices = [] then .ok []
  else layersFrom decChecked order vertices (inDeg g vertices) g.dependents

/-- `sort_unstable` followed by `dedup`. -/
def dedupSorted : List Nat → List Nat
  | [] => []
  | [x] => [x]
  | x :: y :: rest => if x = y then dedupSorted (y :: rest) else x :: dedupSorted (y :: rest)

/-- scheduler.rs 893-911: dependencies inside the subset, base and virtual, each once. -/
def combinedDeps (g : Graph) (vd : VDeps) (vertices : List Nat) (v : Nat) : List Nat :=
  dedupSorted (sortNat ((g.deps v).filter (fun d => decide (d ∈ vertices)) ++ (vd v).filter fun d => decide (d ∈ vertices)))

/-- scheduler.rs 912-917: the inverted lists, in hash order of the vertices. -/
def combinedOut (order : List Nat → List Nat) (g : Graph) (vd : VDeps) (vertices : List Nat) (d : Nat) : List Nat :=
  (order vertices).flatMap fun v => ((combinedDeps g vd vertices v).filter fun x => x == d).map fun _ => v

/-- `build_layers_with_virtual`, scheduler.rs 880-969. -/
def buildLayersVirtual (order : List Nat → List Nat) (g : Graph) (vd : VDeps) (acyclic : List (List Nat)) :
    Res (List (List Nat)) :=
  let vertices := acyclic.flatten
  if vertices = [] then .ok []
  else
    layersFrom decSat order vertices
      (fun v => if v ∈ vertices then some (combinedDeps g vd vertices v).length else none)
      (combinedOut order g vd vertices)

/-! ## Condensation units -/

/-- `ScheduleUnit`, scheduler.rs 20-24. -/
inductive Unit
  | layer (i : Nat)
  | cycle (i : Nat)
  deriving DecidableEq

/-- scheduler.rs 784-793: vertex to condensation node. Components are disjoint, so each vertex has one entry. -/
def nodeEntries (cycles : List (List Nat)) (singles : List Nat) : List (Nat × Nat) :=
  (cycles.zipIdx.flatMap fun p => p.1.map fun v => (v, p.2)) ++
    singles.zipIdx.map fun p => (p.1, cycles.length + p.2)

/-- scheduler.rs 799-828: the edges between different nodes, as (dependent node, dependency node), in scan order. -/
def nodeEdges (order : List (Nat × Nat) → List (Nat × Nat)) (adj : Nat → List Nat) (entries : List (Nat × Nat)) :
    List (Nat × Nat) :=
  (order entries).flatMap fun e => (adj e.1).filterMap fun d =>
    match entries.lookup d with
    | some m => if m ≠ e.2 then some (e.2, m) else none
    | none => none

/-- Smallest member of a cycle (`iter().min()`; a cycle is never empty). -/
def minOf : List Nat → Nat
  | [] => 0
  | [x] => x
  | x :: y :: rest => min x (minOf (y :: rest))

/-- `sort_by_key(|&n| cycles[n].iter().min())`. -/
def insertKey (key : Nat → Nat) (x : Nat) : List Nat → List Nat
  | [] => [x]
  | y :: ys => if key x ≤ key y then x :: y :: ys else y :: insertKey key x ys

def sortKey (key : Nat → Nat) : List Nat → List Nat
  | [] => []
  | x :: xs => insertKey key x (sortKey key xs)

/-- scheduler.rs 835-860: the units of one wave; `layers` are those emitted so far. -/
def emitWave (cycles : List (List Nat)) (singles : List Nat) (acc : List Unit × List (List Nat)) (wave : List Nat) :
    List Unit × List (List Nat) :=
  let cs := sortKey (fun n => minOf (cycles.getD n [])) (wave.filter fun n => decide (n < cycles.length))
  let vs := (wave.filter fun n => decide (n ≥ cycles.length)).map fun n => singles.getD (n - cycles.length) 0
  if vs = [] then (acc.1 ++ cs.map .cycle, acc.2)
  else (acc.1 ++ cs.map .cycle ++ [.layer acc.2.length], acc.2 ++ [sortNat vs])

/-- `build_condensation_units`, scheduler.rs 772-878. -/
def condensation (order : List (Nat × Nat) → List (Nat × Nat)) (adj : Nat → List Nat) (cycles : List (List Nat))
    (acyclic : List (List Nat)) : Res (List Unit × List (List Nat)) :=
  let singles := acyclic.flatten
  let n := cycles.length + singles.length
  let edges := nodeEdges order adj (nodeEntries cycles singles)
  let deg := fun m => if m < n then some (edges.filter fun e => e.1 == m).length else none
  let outs := fun m => (edges.filter fun e => e.2 == m).map Prod.fst
  match waves decChecked outs n deg ((List.range n).filter fun m => deg m == some 0) with
  | none => .broken
  | some ws => if ws.flatten.length ≠ n then .circ else .ok (ws.foldl (emitWave cycles singles) ([], []))

/-! ## Schedules -/

/-- `Schedule`, scheduler.rs 27-38. -/
structure Schedule where
  units : List Unit
  cycles : List (List Nat)
  layers : List (List Nat)

/-- `Schedule::from_parts`, scheduler.rs 41-52. -/
def fromParts (layers : List (List Nat)) : Schedule :=
  ⟨(List.range layers.length).map .layer, [], layers⟩

/-- Hash iteration orders used by one call. -/
structure Orders where
  nat : List Nat → List Nat
  pair : List (Nat × Nat) → List (Nat × Nat)

/-- `create_schedule`, scheduler.rs 69-123, without dynamic topology. -/
def createSchedule (o : Orders) (g : Graph) (S : List Nat) : Res Schedule :=
  let sccs := tarjan S (g.adj fun _ => [])
  let cycles := cyclesOf g sccs
  let acyclic := acyclicOf g sccs
  if cycles = [] then
    match buildLayers o.nat g acyclic with
    | .ok layers => .ok (fromParts layers)
    | .circ => .circ
    | .broken => .broken
  else
    match condensation o.pair g.deps cycles acyclic with
    | .ok r => .ok ⟨r.1, cycles, r.2⟩
    | .circ => .circ
    | .broken => .broken

/-- `create_schedule_with_virtual`, scheduler.rs 127-163. -/
def createScheduleVirtual (o : Orders) (g : Graph) (vd : VDeps) (S : List Nat) : Res Schedule :=
  let sccs := tarjan S (g.adj vd)
  let cycles := cyclesOf g sccs
  let acyclic := acyclicOf g sccs
  if cycles = [] then
    match buildLayersVirtual o.nat g vd acyclic with
    | .ok layers => .ok (fromParts layers)
    | .circ => .circ
    | .broken => .broken
  else
    match condensation o.pair (g.adj vd) cycles acyclic with
    | .ok r => .ok ⟨r.1, cycles, r.2⟩
    | .circ => .circ
    | .broken => .broken

end Verif.Sched

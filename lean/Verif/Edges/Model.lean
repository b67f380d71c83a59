/-!
# Model of the edge store

`crates/formualizer-eval/src/engine/csr_edges.rs` and `delta_edges.rs`.

Vertex ids are natural numbers (the source uses `u32`; that ids are below `u32::MAX` is a hypothesis of the
theorems where it matters).  Offsets are natural numbers (the source stores them as `u32`, so a graph with 2^32 or
more edges is not covered).  A `VertexAddr` is only used through `order_key`, so an address is that pair.
Hash sets are lists of which only membership is used; results built from them are sorted by the source.
-/

namespace Verif.Edges

/-- `VertexAddr::order_key` (addr.rs 190-202). -/
abbrev Key := Nat × Nat

/-- `u32::MAX`. -/
def U32MAX : Nat := 2 ^ 32 - 1

/-- csr_edges.rs 285-303 `CsrEdges`. -/
structure Csr where
  offsets : List Nat
  edges : List Nat
  revOffsets : List Nat
  revEdges : List Nat
  minId : Nat

/-- csr_edges.rs 508-516 `empty` (also 307-315). -/
def Csr.empty : Csr := ⟨[0], [], [0], [], 0⟩

/-- Lexicographic comparison of the sort key `(major, minor, id)`. -/
def keyLe (a b : Nat × Nat × Nat) : Bool :=
  decide (a.1 < b.1) || (a.1 == b.1 && (decide (a.2.1 < b.2.1) || (a.2.1 == b.2.1 && decide (a.2.2 ≤ b.2.2))))

/-- csr_edges.rs 356-366: the sort key of a vertex. -/
def sortKey (coords : List Key) (minId t : Nat) : Nat × Nat × Nat :=
  match coords[t - minId]? with
  | some k => (k.1, k.2, t)
  | none => (U32MAX, U32MAX, t)

/-- Sorting (`sort_by_key`, `sort_unstable`): insertion sort. Equal elements under the keys used here are equal
vertices, so every sorting algorithm gives the same list. -/
def insertBy (le : Nat → Nat → Bool) (x : Nat) : List Nat → List Nat
  | [] => [x]
  | y :: ys => if le x y then x :: y :: ys else y :: insertBy le x ys

def sortBy (le : Nat → Nat → Bool) : List Nat → List Nat
  | [] => []
  | x :: xs => insertBy le x (sortBy le xs)

/-- `sort_by_key` with that key. -/
def sortRow (coords : List Key) (minId : Nat) (row : List Nat) : List Nat :=
  sortBy (fun a b => keyLe (sortKey coords minId a) (sortKey coords minId b)) row

/-- csr_edges.rs 318-327: smallest and largest id, over sources and targets. -/
def idBounds (adj : List (Nat × List Nat)) : Nat × Nat :=
  adj.foldl (fun b p =>
    p.2.foldl (fun b t => (min b.1 t, max b.2 t)) (min b.1 p.1, max b.2 p.1)) (U32MAX, 0)

/-- csr_edges.rs 345-349: rows by offset; a later entry for the same vertex replaces an earlier one. -/
def rowsByOffset (minId n : Nat) (adj : List (Nat × List Nat)) : List (List Nat) :=
  adj.foldl (fun rows p => rows.set (p.1 - minId) p.2) (List.replicate n [])

/-- csr_edges.rs 351-370 and 390-405: lay sorted rows out one after the other. -/
def layOut (sort : List Nat → List Nat) (rows : List (List Nat)) : List Nat × List Nat :=
  rows.foldl (fun acc row => (acc.1 ++ [(acc.2 ++ sort row).length], acc.2 ++ sort row)) ([0], [])

/-- csr_edges.rs 378-387: the rows of incoming edges. -/
def reverseRows (minId n : Nat) (rows : List (List Nat)) : List (List Nat) :=
  rows.zipIdx.foldl (fun acc p =>
    p.1.foldl (fun acc t =>
      if t - minId < n then acc.modify (t - minId) (· ++ [minId + p.2]) else acc) acc) (List.replicate n [])

/-- csr_edges.rs 306-414 `from_adjacency`. -/
def fromAdjacency (adj : List (Nat × List Nat)) (coords : List Key) : Csr :=
  if adj = [] then .empty
  else
    let b := idBounds adj
    if b.1 = U32MAX then .empty
    else
      let n := b.2 - b.1 + 1
      let rows := rowsByOffset b.1 n adj
      let fwd := layOut (sortRow coords b.1) rows
      let rev := layOut (sortRow coords b.1) (reverseRows b.1 n rows)
      ⟨fwd.1, fwd.2, rev.1, rev.2, b.1⟩

/-- csr_edges.rs 416-436 and 438-458: `out_edges`, `in_edges`. -/
def slice (offsets edges : List Nat) (minId v : Nat) : List Nat :=
  if offsets.length ≤ 1 then []
  else if v < minId then []
  else
    let idx := v - minId
    if idx ≥ offsets.length - 1 then []
    else
      let start := offsets.getD idx 0
      let stop := offsets.getD (idx + 1) 0
      (edges.drop start).take (stop - start)

def Csr.outEdges (c : Csr) (v : Nat) : List Nat := slice c.offsets c.edges c.minId v
def Csr.inEdges (c : Csr) (v : Nat) : List Nat := slice c.revOffsets c.revEdges c.minId v

/-- csr_edges.rs 495-497 `num_edges`. -/
def Csr.numEdges (c : Csr) : Nat := c.edges.length

/-! ## The delta slab -/

/-- delta_edges.rs 379-399 `DeltaEdgeSlab`. A map to sets is a list of pairs; `addKeys` are the keys that have an
entry in `additions` (an entry can be empty). -/
structure Delta where
  additions : List (Nat × Nat) := []
  addKeys : List Nat := []
  removals : List (Nat × Nat) := []
  additionsIn : List (Nat × Nat) := []
  removalsIn : List (Nat × Nat) := []
  opCount : Nat := 0
  coordChanged : Bool := false

/-- Set insertion and removal. -/
def insertPair (p : Nat × Nat) (l : List (Nat × Nat)) : List (Nat × Nat) := if p ∈ l then l else p :: l
def removePair (p : Nat × Nat) (l : List (Nat × Nat)) : List (Nat × Nat) := l.filter (· ≠ p)

/-- The set stored under key `k`. -/
def setOf (l : List (Nat × Nat)) (k : Nat) : List Nat := (l.filter (fun p => p.1 == k)).map Prod.snd

/-- delta_edges.rs 420-432 `add_edge`. -/
def Delta.addEdge (d : Delta) (a b : Nat) : Delta :=
  { d with
    removals := removePair (a, b) d.removals
    removalsIn := removePair (b, a) d.removalsIn
    additions := insertPair (a, b) d.additions
    addKeys := a :: d.addKeys
    additionsIn := insertPair (b, a) d.additionsIn
    opCount := d.opCount + 1 }

/-- delta_edges.rs 435-447 `remove_edge`. -/
def Delta.removeEdge (d : Delta) (a b : Nat) : Delta :=
  { d with
    additions := removePair (a, b) d.additions
    additionsIn := removePair (b, a) d.additionsIn
    removals := insertPair (a, b) d.removals
    removalsIn := insertPair (b, a) d.removalsIn
    opCount := d.opCount + 1 }

/-- `seen.insert` filter: keep the first occurrence. -/
def dedup : List Nat → List Nat → List Nat
  | _, [] => []
  | seen, x :: rest => if x ∈ seen then dedup seen rest else x :: dedup (x :: seen) rest

/-- delta_edges.rs 452-466 and 471-481: retain, extend, deduplicate, sort. -/
def mergeRow (base removes adds : List Nat) : List Nat :=
  sortBy (fun a b => decide (a ≤ b)) (dedup [] ((base.filter (· ∉ removes)) ++ adds))

/-- delta_edges.rs 450-467 `merged_view`. -/
def Delta.mergedView (d : Delta) (c : Csr) (v : Nat) : List Nat :=
  mergeRow (c.outEdges v) (setOf d.removals v) (setOf d.additions v)

/-- delta_edges.rs 470-482 `merged_in_view`. -/
def Delta.mergedInView (d : Delta) (c : Csr) (v : Nat) : List Nat :=
  mergeRow (c.inEdges v) (setOf d.removalsIn v) (setOf d.additionsIn v)

/-- delta_edges.rs 485-487 `needs_rebuild`. -/
def Delta.needsRebuild (d : Delta) : Bool := decide (d.opCount ≥ 1000) || d.coordChanged

/-- delta_edges.rs 525-544 `apply_to_csr`. -/
def Delta.applyToCsr (d : Delta) (base : Csr) (coords : List Key) (ids : List Nat) : Csr :=
  fromAdjacency (ids.map fun v => (v, d.mergedView base v)) coords

/-! ## The mutable store -/

/-- delta_edges.rs 560-581 `CsrMutableEdges`. `vertex_pos` is a list of pairs, newest first. -/
structure Store where
  base : Csr := .empty
  delta : Delta := {}
  coords : List Key := []
  ids : List Nat := []
  pos : List (Nat × Nat) := []
  batchDepth : Nat := 0
  rebuilds : Nat := 0

/-- delta_edges.rs 752-761 `rebuild`. -/
def Store.rebuild (s : Store) : Store :=
  if s.delta.opCount > 0 ∨ s.delta.needsRebuild = true then
    { s with base := s.delta.applyToCsr s.base s.coords s.ids, delta := {}, rebuilds := s.rebuilds + 1 }
  else s

/-- delta_edges.rs 771-775 `maybe_rebuild`. -/
def Store.maybeRebuild (s : Store) : Store :=
  if s.batchDepth = 0 ∧ s.delta.needsRebuild = true then s.rebuild else s

/-- delta_edges.rs 626-629 `add_edge`. -/
def Store.addEdge (s : Store) (a b : Nat) : Store := { s with delta := s.delta.addEdge a b }.maybeRebuild

/-- delta_edges.rs 632-635 `remove_edge`. -/
def Store.removeEdge (s : Store) (a b : Nat) : Store := { s with delta := s.delta.removeEdge a b }.maybeRebuild

/-- delta_edges.rs 638-644 `out_edges`. -/
def Store.outEdges (s : Store) (v : Nat) : List Nat :=
  if s.delta.opCount = 0 then s.base.outEdges v else s.delta.mergedView s.base v

/-- delta_edges.rs 650-656 `out_edges_ref`. -/
def Store.outEdgesRef (s : Store) (v : Nat) : Option (List Nat) :=
  if s.delta.opCount = 0 then some (s.base.outEdges v) else none

/-- delta_edges.rs 660-662 `in_edges`. -/
def Store.inEdges (s : Store) (v : Nat) : List Nat := s.base.inEdges v

/-- delta_edges.rs 667-673 `in_edges_merged`. -/
def Store.inEdgesMerged (s : Store) (v : Nat) : List Nat :=
  if s.delta.opCount = 0 then s.base.inEdges v else s.delta.mergedInView s.base v

/-- delta_edges.rs 679-685 `in_edges_ref`. -/
def Store.inEdgesRef (s : Store) (v : Nat) : Option (List Nat) :=
  if s.delta.opCount = 0 then some (s.base.inEdges v) else none

/-- delta_edges.rs 696-727 `visit_in_edges_bounded` with a visitor that never stops: the vertices presented and
whether the visit was complete. -/
def visitLoop (skip : List Nat) : List Nat → Nat → List Nat × Nat × Bool
  | [], w => ([], w, true)
  | _ :: _, 0 => ([], 0, false)
  | x :: rest, w + 1 =>
    if x ∈ skip then visitLoop skip rest w
    else (x :: (visitLoop skip rest w).1, (visitLoop skip rest w).2)

def Store.visitInEdges (s : Store) (v work : Nat) : List Nat × Bool :=
  let a := visitLoop (setOf s.delta.removalsIn v) (s.base.inEdges v) work
  if a.2.2 then
    let b := visitLoop [] (setOf s.delta.additionsIn v) a.2.1
    (a.1 ++ b.1, b.2.2)
  else (a.1, false)

/-- delta_edges.rs 740-749 `num_edges_exact`. -/
def Store.numEdgesExact (s : Store) : Nat :=
  if s.delta.opCount = 0 then s.base.numEdges else (s.ids.map fun v => (s.outEdges v).length).sum

/-- delta_edges.rs 778-780 `begin_batch` (`saturating_add`: the bound 2^64 is not modelled). -/
def Store.beginBatch (s : Store) : Store := { s with batchDepth := s.batchDepth + 1 }

/-- delta_edges.rs 789-794 `end_batch`. -/
def Store.endBatch (s : Store) : Store := { s with batchDepth := s.batchDepth - 1 }.maybeRebuild

/-- delta_edges.rs 798-800 `end_batch_deferred`. -/
def Store.endBatchDeferred (s : Store) : Store := { s with batchDepth := s.batchDepth - 1 }

/-- delta_edges.rs 808-814 `add_vertex`. -/
def Store.addVertex (s : Store) (k : Key) (id : Nat) : Store :=
  { s with coords := s.coords ++ [k], ids := s.ids ++ [id], pos := (id, s.coords.length) :: s.pos }

/-- delta_edges.rs 817-833 `add_vertices_batch`. -/
def Store.addVertices (s : Store) (items : List (Key × Nat)) : Store :=
  if items = [] then s else (items.foldl (fun s p => s.addVertex p.1 p.2) s).rebuild

/-- delta_edges.rs 837-848 `update_addr`. -/
def Store.updateAddr (s : Store) (id : Nat) (k : Key) : Store :=
  match s.pos.lookup id with
  | none => s
  | some p => { s with coords := s.coords.set p k, delta := { s.delta with coordChanged := true } }

/-- delta_edges.rs 867-884: rows for registered vertices that the input does not cover. -/
def Store.carryKnown (s : Store) (adj : List (Nat × List Nat)) : List (Nat × List Nat) :=
  (s.ids.filter fun v => v ∉ adj.map Prod.fst && s.outEdges v ≠ []).map fun v => (v, s.outEdges v)

/-- delta_edges.rs 885-911: one key of `additions`. -/
def Store.carryAdded (s : Store) (covered : List Nat) (adj : List (Nat × List Nat)) (v : Nat) :
    List (Nat × List Nat) :=
  if v ∈ covered then adj
  else if v ∈ adj.map Prod.fst then adj
  else
    let row := dedup [] (((s.base.outEdges v).filter (· ∉ setOf s.delta.removals v)) ++ setOf s.delta.additions v)
    if row = [] then adj else adj ++ [(v, sortBy (fun a b => decide (a ≤ b)) row)]

/-- delta_edges.rs 863-913 `adjacency_with_carried_forward_edges`. -/
def Store.carryForward (s : Store) (adj : List (Nat × List Nat)) : List (Nat × List Nat) :=
  s.delta.addKeys.foldl (s.carryAdded (adj.map Prod.fst)) (adj ++ s.carryKnown adj)

/-- delta_edges.rs 922-938 `build_from_adjacency`. -/
def Store.buildFromAdjacency (s : Store) (adj : List (Nat × List Nat)) (coords : List Key) (ids : List Nat) : Store :=
  { s with base := fromAdjacency adj coords, coords := coords, ids := ids, pos := ids.zipIdx.reverse, delta := {} }

/-- graph/mod.rs 1018-1030 `build_edges_from_adjacency`. -/
def Store.bulk (s : Store) (adj : List (Nat × List Nat)) (coords : List Key) (ids : List Nat) : Store :=
  s.buildFromAdjacency (s.carryForward adj) coords ids

/-- What the graph does with the store. -/
inductive Op
  | addVertex (k : Key) (id : Nat)
  | addVertices (items : List (Key × Nat))
  | updateAddr (id : Nat) (k : Key)
  | addEdge (a b : Nat)
  | removeEdge (a b : Nat)
  | beginBatch
  | endBatch
  | endBatchDeferred
  | rebuild
  | bulk (adj : List (Nat × List Nat)) (coords : List Key) (ids : List Nat)

def step (s : Store) : Op → Store
  | .addVertex k id => s.addVertex k id
  | .addVertices items => s.addVertices items
  | .updateAddr id k => s.updateAddr id k
  | .addEdge a b => s.addEdge a b
  | .removeEdge a b => s.removeEdge a b
  | .beginBatch => s.beginBatch
  | .endBatch => s.endBatch
  | .endBatchDeferred => s.endBatchDeferred
  | .rebuild => s.rebuild
  | .bulk adj coords ids => s.bulk adj coords ids

def run (ops : List Op) : Store := ops.foldl step {}

end Verif.Edges

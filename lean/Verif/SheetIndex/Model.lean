import Verif.Interval.Model

/-!
# The per-sheet position index

`crates/formualizer-eval/src/engine/sheet_index.rs`. Vertices are of any type with decidable equality, coordinates are
naturals (the code's `u32`; no arithmetic is done on them). Hash sets are lists without repetition; a hash map being
drained into a vector is a list of entries with distinct keys, in order of first insertion (the code's order is
unspecified, the consumer `bulk_build_points` sorts it or inserts item by item).
-/

namespace Verif.SheetIndex

open Verif.Interval

variable {V : Type} [DecidableEq V]

/-- `SheetIndex`, sheet_index.rs 48-62 (test counters left out). -/
structure Index (V : Type) where
  members : List V := []
  rowTree : Tree V := {}
  colTree : Tree V := {}

/-- `add_vertex`, sheet_index.rs 87-107. -/
def addVertex (s : Index V) (r c : Nat) (v : V) : Index V :=
  if v ∈ s.members then s
  else { members := s.members ++ [v], rowTree := entryInsert s.rowTree r r v, colTree := entryInsert s.colTree c c v }

/-- `map.entry(k).or_default().insert(v)`, sheet_index.rs 124-125. -/
def groupAdd (k : Nat) (v : V) : List (Nat × List V) → List (Nat × List V)
  | [] => [(k, [v])]
  | (k', vs) :: rest => if k' = k then (k', setInsert v vs) :: rest else (k', vs) :: groupAdd k v rest

/-- Accumulator of the loop at sheet_index.rs 120-126. -/
structure Acc (V : Type) where
  members : List V
  rows : List (Nat × List V) := []
  cols : List (Nat × List V) := []

/-- Loop body at sheet_index.rs 120-126. -/
def accStep (a : Acc V) (it : (Nat × Nat) × V) : Acc V :=
  if it.2 ∈ a.members then a
  else { members := a.members ++ [it.2], rows := groupAdd it.1.1 it.2 a.rows, cols := groupAdd it.1.2 it.2 a.cols }

/-- `add_vertices_batch`, sheet_index.rs 109-145; `build_from_sorted` (79-81) is the same function. -/
def addBatch (s : Index V) (items : List ((Nat × Nat) × V)) : Index V :=
  if items = [] then s
  else if s.rowTree.size = 0 ∧ s.colTree.size = 0 then
    let a := items.foldl accStep { members := s.members }
    { members := a.members, rowTree := bulkBuild s.rowTree a.rows, colTree := bulkBuild s.colTree a.cols }
  else items.foldl (fun s it => addVertex s it.1.1 it.1.2 it.2) s

/-- `remove_vertex`, sheet_index.rs 151-161. -/
def removeVertex (s : Index V) (r c : Nat) (v : V) : Index V :=
  if v ∈ s.members then
    { members := setRemove v s.members, rowTree := (remove s.rowTree r r v).1, colTree := (remove s.colTree c c v).1 }
  else s

/-- `update_vertex`, sheet_index.rs 167-170. -/
def updateVertex (s : Index V) (r c r' c' : Nat) (v : V) : Index V := addVertex (removeVertex s r c v) r' c' v

/-- `collect_axis_range`, sheet_index.rs 210-221 with `visit_axis_range` 185-202. -/
def collect (t : Tree V) (a b : Nat) : List V := setExtend [] (visitPoints t a b)

/-- `vertices_in_row_range`, sheet_index.rs 227-231. -/
def rowRange (s : Index V) (a b : Nat) : List V := collect s.rowTree a b

/-- `vertices_in_col_range`, sheet_index.rs 237-241. -/
def colRange (s : Index V) (a b : Nat) : List V := collect s.colTree a b

/-- `vertices_in_rect`, sheet_index.rs 248-305. -/
def rect (s : Index V) (r1 r2 c1 c2 : Nat) : List V :=
  if r1 > r2 ∨ c1 > c2 then []
  else if r1 = r2 ∧ c1 = c2 then
    match pointValues s.rowTree r1 with
    | none => []
    | some rv =>
      match pointValues s.colTree c1 with
      | none => []
      | some cv =>
        if rv.length ≤ cv.length then rv.filter fun v => decide (v ∈ cv) else cv.filter fun v => decide (v ∈ rv)
  else if pointCount s.rowTree r1 r2 ≤ pointCount s.colTree c1 c2 then
    (visitPoints s.colTree c1 c2).filter fun v => decide (v ∈ collect s.rowTree r1 r2)
  else (visitPoints s.rowTree r1 r2).filter fun v => decide (v ∈ collect s.colTree c1 c2)

/-- `len`, sheet_index.rs 322-324. -/
def len (s : Index V) : Nat := s.members.length

/-- The mutators; `clear` is sheet_index.rs 332-336. -/
inductive Op (V : Type) where
  | add (r c : Nat) (v : V)
  | batch (items : List ((Nat × Nat) × V))
  | remove (r c : Nat) (v : V)
  | update (r c r' c' : Nat) (v : V)
  | clear

def step (s : Index V) : Op V → Index V
  | .add r c v => addVertex s r c v
  | .batch items => addBatch s items
  | .remove r c v => removeVertex s r c v
  | .update r c r' c' v => updateVertex s r c r' c' v
  | .clear => {}

def run (ops : List (Op V)) : Index V := ops.foldl step {}

end Verif.SheetIndex

/-
The dirty closure: from the regions that changed to all the cells that must be computed again.

Source: /repo/crates/formualizer-eval/src/formula_plane/producer.rs, lines 37-145 (`ProducerDirtyDomain`), 282-345
(`FormulaConsumerReadIndex`), 1034-1244 (`compute_dirty_closure_with_iteration_limit`, `apply_dirty_projection`), and
/repo/crates/formualizer-eval/src/engine/eval.rs, lines 12634-12717 (what the engine does with the outcome).

Simplifications.
* `query : Region → List (Entry P)` stands for `query_changed_region`; `consumerQuery` below is the code's.  The theorems
  hold for whatever order it returns the entries in.
* The map from producers to domains is an association list.  Its order only fixes the order of the work list.
* Statistics and the checkpoints (which can only stop the computation with an error) are left out.
-/
import Verif.Plane.ProjectProps
import Verif.Plane.IndexQuery

namespace Verif.Plane

namespace Dom

/-- producer.rs 132-145, `append_unique`. -/
def appendUnique {α : Type} [DecidableEq α] (l : List α) : List α → List α
  | [] => l
  | a :: rest => if a ∈ l then appendUnique l rest else appendUnique (l ++ [a]) rest

/-- A cell as a region. -/
def pointOf (k : Key) : Region := Region.point k.sheet k.row k.col

/-- producer.rs 58-87, `ProducerDirtyDomain::merge`. -/
def merge : Dom → Dom → Dom
  | .whole, _ => .whole
  | _, .whole => .whole
  | .cells a, .cells b => .cells (appendUnique a b)
  | .regions a, .regions b => .regions (appendUnique a b)
  | .cells a, .regions b => .regions (appendUnique (a.map pointOf) b)
  | .regions a, .cells b => .regions (appendUnique a (b.map pointOf))

/-- producer.rs 89-100, `result_regions`. -/
def resultRegions (d : Dom) (result : Region) : List Region :=
  match d with
  | .whole => [result]
  | .cells l => l.map pointOf
  | .regions l => l

end Dom

/-- producer.rs 285-291, `FormulaConsumerReadEntry`. -/
structure Entry (P : Type) where
  consumer : P
  read : Region
  result : Region
  rule : Rule

/-- producer.rs 343-373, `query_changed_region`: the index is searched, and the numbers it returns are looked up in the
list of entries. -/
def consumerQuery {P : Type} (entries : List (Entry P)) (changed : Region) : List (Entry P) :=
  match (Index.build 64 16 (entries.map Entry.read)).query changed with
  | none => []
  | some ids => ids.filterMap fun id => entries[id]?

namespace Closure

/-- The variables of the loop. -/
structure St (P : Type) where
  dirty : List (P × Dom) := []
  queue : List Region := []
  seen : List Region := []
  emitted : List Region := []
  fallbacks : List P := []

variable {P : Type} [DecidableEq P]

/-- `dirty_by_producer.get(&consumer)`. -/
def get (m : List (P × Dom)) (c : P) : Option Dom := (m.find? fun e => e.1 = c).map Prod.snd

/-- Replaces or adds the domain of a producer. -/
def put (m : List (P × Dom)) (c : P) (d : Dom) : List (P × Dom) := (c, d) :: m.filter fun e => e.1 ≠ c

/-- producer.rs 1232-1242: a region that was not seen before is queued. -/
def emit (st : St P) (r : Region) : St P :=
  if r ∈ st.seen then st
  else
    { st with
      seen := r :: st.seen
      queue := st.queue ++ [r]
      emitted := st.emitted ++ [r] }

/-- producer.rs 1221-1243: the second half of `apply_dirty_projection`, when the domain has grown. -/
def emitAll (result : P → Option Region) (st : St P) (c : P) (d : Dom) : St P :=
  match result c with
  | none =>
    { st with
      fallbacks := st.fallbacks ++ [c] }
  | some rr => (d.resultRegions rr).foldl emit st

/-- producer.rs 1202-1245, `apply_dirty_projection`. -/
def apply (result : P → Option Region) (st : St P) (c : P) (d : Dom) : St P :=
  match get st.dirty c with
  | some old =>
    if old.merge d = old then st
    else
      emitAll result
        { st with
          dirty := put st.dirty c (old.merge d) } c d
  | none =>
    emitAll result
      { st with
        dirty := put st.dirty c d } c d

/-- producer.rs 1121-1170: one match. -/
def onMatch (result : P → Option Region) (changed : Region) (st : St P) (e : Entry P) : St P :=
  match e.rule.project changed e.read e.result with
  | .exact_ d => apply result st e.consumer d
  | .conservative d =>
    apply result
      { st with
        fallbacks := st.fallbacks ++ [e.consumer] } e.consumer d
  | .noIntersection => st
  | .unsupported =>
    { st with
      fallbacks := st.fallbacks ++ [e.consumer] }

/-- producer.rs 1083-1172: the loop.  `none` when the limit on the number of rounds is reached (lines 1090-1101: the
closure is incomplete and what was found is thrown away). -/
def loop (query : Region → List (Entry P)) (result : P → Option Region) : Nat → St P → Option (St P)
  | n, st =>
    match st.queue with
    | [] => some st
    | r :: rest =>
      match n with
      | 0 => none
      | n + 1 =>
        loop query result n ((query r).foldl (onMatch result r)
          { st with
            queue := rest })

/-- producer.rs 1068-1081: the regions that changed are queued, each once. -/
def start (changed : List Region) : St P :=
  changed.foldl (fun st r =>
    if r ∈ st.seen then st
    else
      { st with
        seen := r :: st.seen
        queue := st.queue ++ [r] }) {}

/-- producer.rs 1060-1192, `compute_dirty_closure_with_iteration_limit`. -/
def closure (query : Region → List (Entry P)) (result : P → Option Region) (limit : Nat) (changed : List Region) :
    Option (St P) := loop query result limit (start changed)

/-- eval.rs 12682-12716: the domains that the engine takes from the outcome.  When the closure is incomplete every span is
dirty as a whole; when there was a fallback, the span concerned is. -/
def marks (spans : List P) (out : Option (St P)) : List (P × Dom) :=
  match out with
  | none => spans.map fun c => (c, .whole)
  | some st => st.dirty ++ st.fallbacks.map fun c => (c, .whole)

end Closure
end Verif.Plane

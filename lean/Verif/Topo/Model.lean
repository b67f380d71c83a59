import Verif.Sched.Model

/-!
# The dynamic topological order

`crates/formualizer-eval/src/engine/topo/pk.rs`. Nodes are naturals (the code is generic over an ordered type; the
engine uses vertex ids). The table `pos` is the index in `order`: every function that writes one rewrites the other
(`new` 62-64, `rebuild_full` 118-121, `compact_ranks` 255-258, `add_missing` 329-332, `splice_after` 378-380), so it is
not kept separately. Node counts of 2^32 or more are not covered.
-/

namespace Verif.Topo

open Verif.Sched

/-- `GraphView`, pk.rs 8-12. -/
structure View where
  succ : Nat → List Nat
  pred : Nat → List Nat
  exist : Nat → Bool := fun _ => true

/-- `PkConfig` and `DynamicTopo`, pk.rs 24-51. -/
structure Pk where
  order : List Nat
  ops : Nat := 0
  budget : Nat := 50000
  interval : Nat := 100000

/-- `pos.get(&n)`. -/
def Pk.pos (p : Pk) (n : Nat) : Option Nat := p.order.idxOf? n

/-- `new`, pk.rs 57-73. -/
def Pk.new (nodes : List Nat) (budget interval : Nat) : Pk := { order := sortNat nodes, budget, interval }

/-! ## Kahn with a limited number of nodes per round -/

/-- The loop of `layers_for`, pk.rs 297-319, and of `rebuild_full` (94-111, one node per round, 97 `pop` takes the
smallest): take the first `cap` ready nodes, relax their successors, sort the ready list. `none`: an in-degree
underflows, or the fuel runs out. -/
def cappedWaves (dec : Nat → Option Nat) (outs : Nat → List Nat) (sort : List Nat → List Nat) (cap : Nat) :
    Nat → (Nat → Option Nat) → List Nat → Option (List (List Nat))
  | 0, _, q => if q = [] then some [] else none
  | fuel + 1, deg, q =>
    if q = [] then some []
    else (relaxAll dec ((sort (q.take cap)).flatMap outs) ⟨deg, q.drop cap⟩).bind fun s =>
      (cappedWaves dec outs sort cap fuel s.deg (sort s.next)).map fun rest => sort (q.take cap) :: rest

/-- pk.rs 83-93 and 279-293: in-degrees inside the node set. -/
def degIn (g : View) (nodes : List Nat) (n : Nat) : Option Nat :=
  if n ∈ nodes then some (nodes.count n * ((g.pred n).filter fun p => decide (p ∈ nodes)).length) else none

/-- `rebuild_full`, pk.rs 76-122. `order` is the hash iteration order of the in-degree table. -/
def Pk.rebuild (horder : List Nat → List Nat) (p : Pk) (g : View) : Option Pk :=
  let nodes := sortNat (p.order.filter g.exist)
  let zero := sortNat (horder (nodes.filter fun n => degIn g nodes n == some 0))
  (cappedWaves decChecked g.succ sortNat 1 nodes.length (degIn g nodes) zero).map fun ws =>
    { p with order := if ws.flatten.length ≠ nodes.length then nodes else ws.flatten }

/-- `compact_ranks`, pk.rs 247-259. -/
def Pk.compact (p : Pk) : Pk := { p with order := sortKey (fun n => (p.pos n).getD 0) p.order }

/-- `op_count += 1; if op_count.is_multiple_of(interval) { compact_ranks() }`. -/
def Pk.tick (p : Pk) : Pk :=
  let p := { p with ops := p.ops + 1 }
  if p.ops % p.interval = 0 then p.compact else p

/-- `add_missing` and `ensure_nodes`, pk.rs 329-343. -/
def Pk.ensure (p : Pk) (n : Nat) : Pk := if n ∈ p.order then p else { p with order := p.order ++ [n] }

/-- `splice_after`, pk.rs 346-382. -/
def spliceAfter (order : List Nat) (after : Nat) (affected : List Nat) : List Nat :=
  let left := order.filter fun n => decide (n ∉ affected)
  let block := order.filter fun n => decide (n ∈ affected)
  if affected = [] then order else left.take (after + 1) ++ block ++ left.drop (after + 1)

/-- Outcome of the limited search. -/
inductive Found
  | cycle (path : List Nat)
  | clear (affected : List Nat)
  | budget
  | stuck
  deriving DecidableEq

/-- State of the limited search, pk.rs 149-153; `visited` newest first (`visited_cnt` is its length). -/
structure Dfs where
  stack : List Nat
  parent : List (Nat × Nat) := []
  visited : List Nat := []
  affected : List Nat := []

/-- pk.rs 166-173: follow the parent table from `x` back to `y`. -/
def pathTo (parent : List (Nat × Nat)) (y : Nat) : Nat → Nat → Option (List Nat)
  | 0, cur => if cur = y then some [cur] else none
  | n + 1, cur =>
    if cur = y then some [cur]
    else (parent.lookup cur).bind fun prev => (pathTo parent y n prev).map fun path => path ++ [cur]

/-- The loop of pk.rs 155-189. `stuck`: out of fuel or a missing parent, neither of which happens. -/
def search (p : Pk) (g : View) (x y px : Nat) : Nat → Dfs → Found
  | 0, _ => .stuck
  | n + 1, s =>
    match s.stack with
    | [] => .clear s.affected
    | u :: stack =>
      if u ∈ s.visited then search p g x y px n { s with stack := stack }
      else if (u :: s.visited).length > p.budget then .budget
      else if u = x then
        match pathTo s.parent y (u :: s.visited).length x with
        | some path => .cycle path
        | none => .stuck
      else
        let next := (g.succ u).filter fun v =>
          (match p.pos v with | some pv => decide (pv ≤ px) | none => false) && decide (v ∉ u :: s.visited)
        search p g x y px n
          { stack := next.reverse ++ stack
            parent := (next.map fun v => (v, u)).reverse ++ s.parent
            visited := u :: s.visited
            affected := s.affected ++ [u] }

/-- Fuel for the search: one round for every pushed entry. -/
def searchFuel (p : Pk) (g : View) : Nat := (p.order.map fun n => (g.succ n).length + 1).sum + 2

/-- Result of `try_add_edge`. -/
inductive Add
  | ok (p : Pk)
  | cycle (p : Pk) (path : List Nat)
  | broken

/-- `try_add_edge`, pk.rs 131-209. The fuel counts the recursive calls of line 168; `broken` when it runs out. -/
def Pk.tryAdd (horder : List Nat → List Nat) (g : View) (x y : Nat) : Nat → Pk → Add
  | 0, _ => .broken
  | n + 1, p =>
    if x = y then .cycle p [x, y]
    else
      let p := (p.ensure x).ensure y
      let px := p.order.idxOf x
      let py := p.order.idxOf y
      if px < py then .ok p
      else
        match search p g x y px (searchFuel p g) { stack := [y] } with
        | .cycle path => .cycle p path
        | .budget =>
          match p.rebuild horder g with
          | none => .broken
          | some p => Pk.tryAdd horder g x y n { p with ops := p.ops + 1 }
        | .clear affected => .ok ({ p with order := spliceAfter p.order px affected }.tick)
        | .stuck => .broken

/-- `remove_edge`, pk.rs 210-219. -/
def Pk.removeEdge (p : Pk) : Pk := p.tick

/-- `layers_for`, pk.rs 263-325; a missing position panics (`none`). -/
def Pk.layersFor (horder : List Nat → List Nat) (p : Pk) (g : View) (subset : List Nat) (cap : Option Nat) (fuel : Nat) :
    Option (List (List Nat)) :=
  if subset = [] then some []
  else if subset.all fun n => decide (n ∈ p.order) then
    let sort := sortKey fun n => p.order.idxOf n
    cappedWaves decChecked g.succ sort (cap.getD (2 ^ 64 - 1)) fuel (degIn g subset)
      (sort (horder (subset.filter fun n => degIn g subset n == some 0)))
  else none

end Verif.Topo

import Mathlib.Data.List.FinRange

/-!
# Evaluation of the cells of a loop

Model of `/repo/crates/formualizer-eval/src/engine/eval.rs` 24654-25240 (`handle_cycle_unit`, `evaluate_scc_unit`) with `engine/live_edges.rs` (`LiveEdgeCollector`) and
`engine/live_graph.rs` (`analyze_live_graph`), for `CycleDetection::Runtime` and both policies.

The members of a unit (cells, then names, in their order) are numbered.  The formula of a member is a program that reads members one after another and may decide by what
it has read what it reads next; all cells outside of the unit are constant.  Reading a range is reading its members in order.  The analysis of the recorded reads is a
parameter, which has to find the cycles and an order (`Right`).  Cancellation, deltas, telemetry, the restoring of values lost by structural edits (0b) and the
registration for the next recalculation are left out.  Values are compared by equality.
-/

namespace Verif.Scc

variable {n : Nat} {V : Type}

/-- The formula of a member: a value, or a read of a member and what follows from the value read. -/
inductive Prog (n : Nat) (V : Type) where
  | ret (v : V)
  | read (t : Fin n) (k : V → Prog n V)

/-- eval.rs 24866-24878 with live_edges.rs: the value of a formula and the members that it reads, in order. -/
def run (s : Fin n → V) : Prog n V → V × List (Fin n)
  | .ret v => (v, [])
  | .read t k => ((run s (k (s t))).1, t :: (run s (k (s t))).2)

/-- The members of a unit. -/
structure Members (n : Nat) (V : Type) where
  prog : Fin n → Prog n V
  /-- an array as the result of a cell -/
  arr : Fin n → V → Bool
  /-- `#CIRC!` -/
  circ : V

/-- eval.rs 24830-24864: the state of the passes. -/
structure St (n : Nat) (V : Type) where
  val : Fin n → V
  /-- the reads of the last run -/
  outs : Fin n → List (Fin n)
  /-- the place in the last pass, if it ran there -/
  pos : Fin n → Option Nat
  changed : Fin n → Bool
  excl : Fin n → Bool

/-- An assignment to one member. -/
def set {α : Type} (f : Fin n → α) (i : Fin n) (a : α) : Fin n → α := fun j => if j = i then a else f j

variable [DecidableEq V]

/-- eval.rs 24866-24915, `run_member!`, and the recorded reads. -/
def runMember (u : Members n V) (st : St n V) (i : Fin n) (p : Nat) : St n V :=
  let r := run st.val (u.prog i)
  let v := if u.arr i r.1 = true then u.circ else r.1
  { val := set st.val i v
    outs := set st.outs i r.2
    pos := set st.pos i (some p)
    changed := set st.changed i (decide (st.val i ≠ v))
    excl := set st.excl i (st.excl i || u.arr i r.1) }

/-- The members of a list one after another, the first at place `p`. -/
def passGo (u : Members n V) : St n V → Nat → List (Fin n) → St n V
  | st, _, [] => st
  | st, p, i :: rest => passGo u (runMember u st i p) (p + 1) rest

/-- eval.rs 25113-25119, 25187-25190: places and changes are those of one pass. -/
def St.reset (st : St n V) : St n V := { st with pos := fun _ => none, changed := fun _ => false }

/-- A pass. -/
def pass (u : Members n V) (st : St n V) (order : List (Fin n)) : St n V := passGo u st.reset 0 order

/-- The members that are not excluded, in their order. -/
def St.live (st : St n V) : List (Fin n) := (List.finRange n).filter fun i => !st.excl i

/-- live_graph.rs 21-33, `LiveGraphAnalysis`. -/
structure Analysis (n : Nat) where
  inCycle : Fin n → Bool
  topo : List (Fin n)

/-- The reads as the analysis gets them, eval.rs 24995-25006. -/
def St.edges (st : St n V) : Fin n → List (Fin n) := fun i => if st.excl i = true then [] else st.outs i

/-- eval.rs 25146-25160: a read that happened before the value changed in the last pass. -/
def staleEdge (st : St n V) (i t : Fin n) : Bool :=
  st.changed t && match st.pos i, st.pos t with
    | none, _ => true
    | some p, some q => decide (p < q)
    | some _, none => false

/-- eval.rs 25146-25160, a stale reader. -/
def stale (st : St n V) (i : Fin n) : Bool := !st.excl i && (st.outs i).any (staleEdge st i)

/-- The policies. -/
inductive Policy where
  | error
  | iterate (maxIterations : Nat)
deriving DecidableEq

/-- How the loop ends: without cycle and stale readers; with members of cycles stamped; converged; at the limit of iterations; at the budget for settling. -/
inductive End where
  | exact
  | stamped
  | converged
  | capped
  | budget
deriving DecidableEq

/-- eval.rs 24961-24980: the state of the loop. -/
structure Loop (n : Nat) (V : Type) where
  st : St n V
  /-- the values after the full pass before the last one -/
  prev : Option (Fin n → V)
  passes : Nat
  settles : Nat

/-- eval.rs 25021-25030, 25172-25180: members are stamped with `#CIRC!`. -/
def stamp (u : Members n V) (st : St n V) (which : Fin n → Bool) : St n V :=
  { st with
    val := fun i => if which i = true ∧ st.excl i = false then u.circ else st.val i
    excl := fun i => st.excl i || which i }

/-- eval.rs 25052-25091: the test of convergence of the last pass against the one before, if both were full passes. -/
def close (conv : V → V → Bool) (prev : Option (Fin n → V)) (st : St n V) : Bool :=
  match prev with
  | none => false
  | some prev => (List.finRange n).all fun i => st.excl i || conv (prev i) (st.val i)

/-- eval.rs 24981-25207: one round of the loop.  `a` is the analysis and `conv` the test of convergence. -/
def round (a : (Fin n → List (Fin n)) → Analysis n) (conv : V → V → Bool) (u : Members n V) (pol : Policy) (L : Loop n V) : Loop n V ⊕ (Loop n V × End) :=
  let st := L.st
  let an := a st.edges
  if (List.finRange n).any an.inCycle = true then
    match pol with
    | .error =>
      let st' := stamp u st an.inCycle
      .inr ({ L with st := pass u st' (an.topo.filter fun i => !st'.excl i) }, .stamped)
    | .iterate maxIterations =>
      if close conv L.prev st = true then .inr (L, .converged)
      else if L.passes ≥ maxIterations then .inr (L, .capped)
      else .inl { st := pass u st st.live, prev := some st.val, passes := L.passes + 1, settles := L.settles }
  else if (List.finRange n).any (stale st) = false then .inr (L, .exact)
  else if 1 + L.settles ≥ n + 2 then .inr ({ L with st := stamp u st fun _ => true }, .budget)
  else .inl { st := pass u st (an.topo.filter (stale st)), prev := none, passes := L.passes + 1, settles := L.settles + 1 }

/-- eval.rs 24981-25207, the loop; `none` if `m` rounds do not suffice. -/
def rounds (a : (Fin n → List (Fin n)) → Analysis n) (conv : V → V → Bool) (u : Members n V) (pol : Policy) : Nat → Loop n V → Option (Loop n V × End)
  | 0, _ => none
  | m + 1, L =>
    match round a conv u pol L with
    | .inr r => some r
    | .inl L' => rounds a conv u pol m L'

/-- eval.rs 24808-24952: the start with the values `val`, where the members `excl` have been stamped or cannot be evaluated, and the first pass. -/
def start (u : Members n V) (val : Fin n → V) (excl : Fin n → Bool) : Loop n V :=
  let st : St n V := { val := val, outs := fun _ => [], pos := fun _ => none, changed := fun _ => false, excl := excl }
  { st := pass u st st.live, prev := none, passes := 1, settles := 0 }

/-- eval.rs 24712-25240, `evaluate_scc_unit`. -/
def evaluate (a : (Fin n → List (Fin n)) → Analysis n) (conv : V → V → Bool) (u : Members n V) (pol : Policy) (val : Fin n → V) (excl : Fin n → Bool) (m : Nat) :
    Option (Loop n V × End) := rounds a conv u pol m (start u val excl)

/-! ### What the analysis has to find -/

/-- A way along reads, of at least one step. -/
inductive Path (adj : Fin n → List (Fin n)) : Fin n → Fin n → Prop where
  | one {i t : Fin n} (h : t ∈ adj i) : Path adj i t
  | step {i t j : Fin n} (h : t ∈ adj i) (p : Path adj t j) : Path adj i j

/-- The analysis finds the members of cycles and lists all members, what is read before what reads it unless they are on a cycle together. -/
def Right (a : (Fin n → List (Fin n)) → Analysis n) : Prop :=
  ∀ adj, (∀ i, (a adj).inCycle i = true ↔ Path adj i i) ∧ ((a adj).topo.Nodup ∧ ∀ i, i ∈ (a adj).topo) ∧
    ∀ i t, t ∈ adj i → ¬ Path adj t i → ∃ l r, (a adj).topo = l ++ i :: r ∧ t ∈ l

end Verif.Scc

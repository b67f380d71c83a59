/-!
# The resource ledger of an evaluation request

Model of `crates/formualizer-eval/src/engine/resource_ledger.rs`.  Amounts are natural numbers of at
most `maxU64`; durations are nanoseconds of at most `maxDuration`.  The clock is not modelled: the
time elapsed is an argument of the operations that read it.
-/
namespace Verif.Ledger

def maxU64 : Nat := 18446744073709551615

/-- `Duration::MAX` in nanoseconds. -/
def maxDuration : Nat := 18446744073709551615999999999

/-- `checked_add` on `u64`. -/
def addU64 (a b : Nat) : Option Nat := if a + b ≤ maxU64 then some (a + b) else none

/-- `checked_mul` on `u64`. -/
def mulU64 (a b : Nat) : Option Nat := if a * b ≤ maxU64 then some (a * b) else none

/-- `checked_sub`. -/
def subU64 (a b : Nat) : Option Nat := if b ≤ a then some (a - b) else none

/-- `saturating_mul`. -/
def satMul (a b : Nat) : Nat := min (a * b) maxU64

/-- `ResourceExhaustionReason`, those used in this file. -/
inductive Reason
  | overflow
  | retained
  | scratch
  | work
  | deadline
  | vertices
  | edges
  | cells
  | admission
deriving DecidableEq

/-- `ResourceLedgerError` (resource_ledger.rs 385-393), without the request. -/
inductive Err
  | exhausted (reason : Reason) (limit observed : Nat)
  | underflow (reason : Reason) (reserved released : Nat)
deriving DecidableEq

/-- The fields of `EvaluationBudgets` (resource_ledger.rs 40-56, 157-199) that this file reads or
fills; the semantic and optimization budgets are left out. -/
structure Budgets where
  vertices : Option Nat := none
  edges : Option Nat := none
  cells : Option Nat := none
  graphBytes : Option Nat := none
  retained : Option Nat := none
  mixedCache : Option Nat := none
  lookupCache : Option Nat := none
  scratch : Option Nat := none
  schedule : Option Nat := none
  graphSource : Option Nat := none
  spillOverlay : Option Nat := none
  work : Option Nat := none
  deadline : Option Nat := none
deriving DecidableEq

/-! ## Admission -/

/-- `GraphAdmission` (resource_ledger.rs 58-65). -/
structure Admission where
  finalVertices : Nat
  finalEdges : Nat
  cells : Nat
  addedVertices : Nat
  addedEdges : Nat

/-- `GraphAdmission::materialized_graph_bytes` (resource_ledger.rs 67-97); `usize` has 64 bits, so the
conversions succeed. -/
def Admission.bytes (u : Admission) : Except Err Nat :=
  match (mulU64 u.addedVertices 64).bind (fun b => (mulU64 u.addedEdges 16).bind (addU64 b)) with
  | some n => .ok n
  | none => .error (.exhausted .overflow maxU64 maxU64)

/-- `if let Some(limit) = … && observed > limit` -/
def over (limit : Option Nat) (observed : Nat) : Bool :=
  match limit with
  | some l => decide (l < observed)
  | none => false

/-- `preflight_graph_admission` (resource_ledger.rs 108-155). -/
def preflight (b : Budgets) (u : Admission) : Except Err Unit :=
  if over b.vertices u.finalVertices then .error (.exhausted .vertices (b.vertices.getD 0) u.finalVertices)
  else if over b.edges u.finalEdges then .error (.exhausted .edges (b.edges.getD 0) u.finalEdges)
  else if over b.cells u.cells then .error (.exhausted .cells (b.cells.getD 0) u.cells)
  else match u.bytes with
    | .error e => .error e
    | .ok n => if over b.graphBytes n then .error (.exhausted .admission (b.graphBytes.getD 0) n) else .ok ()

/-! ## Budgets -/

/-- `ResourceEnvelope` (resource_ledger.rs 217-226), without threads and the disk. -/
structure Envelope where
  retained : Nat
  scratch : Nat
  graphBytes : Nat
  work : Nat
  deadline : Option Nat

/-- `ResourceEnvelope::to_budgets` (resource_ledger.rs 230-271). -/
def Envelope.budgets (e : Envelope) : Budgets :=
  let pool := e.retained / 8
  let mixed := satMul pool 60 / 100
  let schedule := e.scratch / 2
  let source := satMul e.scratch 35 / 100
  { graphBytes := some e.graphBytes
    retained := some e.retained
    mixedCache := some mixed
    lookupCache := some (pool - mixed)
    scratch := some e.scratch
    schedule := some schedule
    graphSource := some source
    spillOverlay := some (e.scratch - schedule - source)
    work := some e.work
    deadline := e.deadline }

/-- `split_legacy_memory_bytes` (resource_ledger.rs 315-318). -/
def split (bytes : Nat) : Nat × Nat := (bytes - bytes / 2, bytes / 2)

/-- `LegacyResourceConfigDisposition` (resource_ledger.rs 274-281). -/
inductive Disposition
  | absent
  | mapped
  | ignored
deriving DecidableEq

/-- One field of `resolve_evaluation_budgets`: an unset budget is filled. -/
def fill (explicit legacy : Option Nat) : Option Nat × Disposition :=
  match legacy with
  | none => (explicit, .absent)
  | some l => match explicit with
    | none => (some l, .mapped)
    | some e => (some e, .ignored)

/-- `resolve_evaluation_budgets` (resource_ledger.rs 320-383); the dispositions are those of the
vertices, the retained and the scratch memory and the time, in that order. -/
def resolve (b : Budgets) (vertices megabytes time : Option Nat) : Budgets × List Disposition :=
  let bytes := megabytes.map (fun m => satMul m (1024 * 1024))
  let v := fill b.vertices vertices
  let r := fill b.retained (bytes.map (fun n => (split n).1))
  let s := fill b.scratch (bytes.map (fun n => (split n).2))
  let t := fill b.deadline time
  ({ b with vertices := v.1, retained := r.1, scratch := s.1, deadline := t.1 }, [v.2, r.2, s.2, t.2])

/-! ## The ledger -/

/-- `ResourceLedger` (resource_ledger.rs 445-457). -/
structure Ledger where
  budgets : Budgets
  retained : Nat := 0
  retainedPeak : Nat := 0
  mixed : Nat := 0
  scratch : Nat := 0
  scratchPeak : Nat := 0
  work : Nat := 0
  checkpoints : Nat := 0
  exhaustion : Option Reason := none
deriving DecidableEq

/-- `minimum_limit` (resource_ledger.rs 534-540). -/
def minLimit : Option Nat → Option Nat → Option Nat
  | some a, some b => some (min a b)
  | some a, none => some a
  | none, some b => some b
  | none, none => none

/-- `exhausted` (resource_ledger.rs 507-520). -/
def Ledger.refuse (l : Ledger) (r : Reason) (limit observed : Nat) : Ledger × Option Err :=
  ({ l with exhaustion := some r }, some (.exhausted r limit observed))

/-- The common body of `reserve_graph_source`, `reserve_schedule_discovery` and `reserve_scratch`
(resource_ledger.rs 602-639, 671-687), which differ in the limit. -/
def Ledger.takeScratch (l : Ledger) (limit : Option Nat) (bytes : Nat) : Ledger × Option Err :=
  match addU64 l.scratch bytes with
  | none => l.refuse .overflow maxU64 maxU64
  | some next =>
    if over limit next then l.refuse .scratch (limit.getD 0) next
    else ({ l with scratch := next, scratchPeak := max l.scratchPeak next }, none)

/-- `account_mixed_cache` (resource_ledger.rs 575-600). -/
def Ledger.accountMixed (l : Ledger) (bytes : Nat) : Ledger × Option Err :=
  match subU64 l.retained l.mixed with
  | none => (l, some (.underflow .retained l.retained l.mixed))
  | some rest =>
    match addU64 rest bytes with
    | none => l.refuse .overflow maxU64 maxU64
    | some next =>
      if over (minLimit l.budgets.retained l.budgets.mixedCache) next then
        l.refuse .retained ((minLimit l.budgets.retained l.budgets.mixedCache).getD 0) next
      else ({ l with retained := next, mixed := bytes, retainedPeak := max l.retainedPeak next }, none)

/-- `reserve_retained` (resource_ledger.rs 641-657). -/
def Ledger.takeRetained (l : Ledger) (bytes : Nat) : Ledger × Option Err :=
  match addU64 l.retained bytes with
  | none => l.refuse .overflow maxU64 maxU64
  | some next =>
    if over l.budgets.retained next then l.refuse .retained (l.budgets.retained.getD 0) next
    else ({ l with retained := next, retainedPeak := max l.retainedPeak next }, none)

/-- `charge_work` (resource_ledger.rs 724-739). -/
def Ledger.charge (l : Ledger) (units : Nat) : Ledger × Option Err :=
  match addU64 l.work units with
  | none => l.refuse .overflow maxU64 maxU64
  | some next =>
    if over l.budgets.work next then l.refuse .work (l.budgets.work.getD 0) next
    else ({ l with work := next }, none)

/-- `elapsed.checked_add(estimate).unwrap_or(Duration::MAX)` (resource_ledger.rs 754). -/
def projected (elapsed estimate : Nat) : Nat :=
  if elapsed + estimate ≤ maxDuration then elapsed + estimate else maxDuration

/-- The first line of `preflight_commit_window` (resource_ledger.rs 749). -/
def Ledger.tick (l : Ledger) : Ledger := { l with checkpoints := min (l.checkpoints + 1) maxU64 }

/-- `preflight_commit_window` (resource_ledger.rs 745-761). -/
def Ledger.window (l : Ledger) (elapsed estimate : Nat) : Ledger × Option Err :=
  match l.budgets.deadline with
  | none => (l.tick, none)
  | some limit =>
    if limit ≤ projected elapsed estimate then
      l.tick.refuse .deadline (min limit maxU64) (min (projected elapsed estimate) maxU64)
    else (l.tick, none)

inductive Op
  /-- `observe_retained` (523-526) -/
  | observeRetained (bytes : Nat)
  /-- `observe_scratch` (529-532) -/
  | observeScratch (bytes : Nat)
  /-- `account_mixed_cache` -/
  | mixedCache (bytes : Nat)
  /-- `reserve_graph_source` -/
  | graphSource (bytes : Nat)
  /-- `reserve_schedule_discovery` -/
  | schedule (bytes : Nat)
  /-- `reserve_retained` -/
  | retain (bytes : Nat)
  /-- `release_retained` (659-669) -/
  | releaseRetained (bytes : Nat)
  /-- `reserve_scratch` -/
  | scratch (bytes : Nat)
  /-- `release_scratch` (689-699) -/
  | releaseScratch (bytes : Nat)
  /-- `release_scratch_to` (705-718) -/
  | scratchTo (checkpoint : Nat)
  /-- `release_all_scratch` (720-722) -/
  | scratchAll
  /-- `charge_work` -/
  | charge (units : Nat)
  /-- `preflight_commit_window`, and `checkpoint_deadline` (741-743) with the estimate zero -/
  | window (elapsed estimate : Nat)

def Ledger.step (l : Ledger) : Op → Ledger × Option Err
  | .observeRetained b =>
    let next := min (l.retained + b) maxU64
    ({ l with retained := next, retainedPeak := max l.retainedPeak next }, none)
  | .observeScratch b =>
    let next := min (l.scratch + b) maxU64
    ({ l with scratch := next, scratchPeak := max l.scratchPeak next }, none)
  | .mixedCache b => l.accountMixed b
  | .graphSource b => l.takeScratch (minLimit l.budgets.scratch l.budgets.graphSource) b
  | .schedule b => l.takeScratch (minLimit l.budgets.scratch l.budgets.schedule) b
  | .retain b => l.takeRetained b
  | .releaseRetained b => match subU64 l.retained b with
    | none => (l, some (.underflow .retained l.retained b))
    | some next => ({ l with retained := next }, none)
  | .scratch b => l.takeScratch l.budgets.scratch b
  | .releaseScratch b => match subU64 l.scratch b with
    | none => (l, some (.underflow .scratch l.scratch b))
    | some next => ({ l with scratch := next }, none)
  | .scratchTo c =>
    if l.scratch < c then (l, some (.underflow .scratch l.scratch c))
    else ({ l with scratch := c }, none)
  | .scratchAll => ({ l with scratch := 0 }, none)
  | .charge u => l.charge u
  | .window e t => l.window e t

def Ledger.run (l : Ledger) (ops : List Op) : Ledger := ops.foldl (fun l o => (l.step o).1) l

/-- `can_reserve_schedule_discovery` (resource_ledger.rs 567-573). -/
def Ledger.canSchedule (l : Ledger) (bytes : Nat) : Bool :=
  match addU64 l.scratch bytes with
  | none => false
  | some next => !over (minLimit l.budgets.scratch l.budgets.schedule) next

end Verif.Ledger

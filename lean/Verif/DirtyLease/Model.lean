/-!
# Model of `crates/formualizer-eval/src/engine/graph/formula_dirty.rs`

The pending-event queue with its lease protocol.  `R` are regions, `S` span references.  Hash sets are lists
(only membership is used).  Statistics counters and the legacy vertex set are left out.
The generation counter is a `Nat`; the source wraps at 2^64 leases.
-/

namespace Verif.DirtyLease

variable {R S : Type} [DecidableEq R] [DecidableEq S]

/-- formula_dirty.rs 15-22 `FormulaDirtyEvent`. -/
inductive Event (R S : Type)
  | region (r : R)
  | spanRegion (s : S) (r : R)
  | wholeSpan (s : S)
deriving DecidableEq

/-- formula_dirty.rs 48-52 `FormulaDirtyLease`. -/
structure Lease (R S : Type) where
  generation : Nat
  prefixLen : Nat
  events : List (Event R S)

/-- formula_dirty.rs 147-151 `ActiveFormulaDirtyLease`. -/
structure Active where
  generation : Nat
  prefixLen : Nat
  extended : Bool

/-- formula_dirty.rs 132-144 `FormulaDirtyState` (the fields used by the protocol). -/
structure State (R S : Type) where
  events : List (Event R S) := []
  regionsSeen : List R := []
  spanRegionsSeen : List (S × R) := []
  spansSeen : List S := []
  leaseGeneration : Nat := 0
  active : Option Active := none

/-- formula_dirty.rs 182-187 `record_region`. -/
def recordRegion (s : State R S) (r : R) : State R S :=
  if r ∈ s.regionsSeen then s
  else { s with regionsSeen := r :: s.regionsSeen, events := s.events ++ [.region r] }

/-- formula_dirty.rs 189-195 `record_span_region`. -/
def recordSpanRegion (s : State R S) (sp : S) (r : R) : State R S :=
  if (sp, r) ∈ s.spanRegionsSeen then s
  else { s with spanRegionsSeen := (sp, r) :: s.spanRegionsSeen, events := s.events ++ [.spanRegion sp r] }

/-- formula_dirty.rs 204-210: body of the loop of `record_whole_spans`. -/
def recordWholeSpan (s : State R S) (sp : S) : State R S :=
  if sp ∈ s.spansSeen then s
  else { s with spansSeen := sp :: s.spansSeen, events := s.events ++ [.wholeSpan sp] }

/-- formula_dirty.rs 197-216 `record_whole_spans`. -/
def recordWholeSpans (s : State R S) (spans : List S) : State R S := spans.foldl recordWholeSpan s

/-- formula_dirty.rs 307-324 `rebuild_pending_dedup`. -/
def rebuild (s : State R S) : State R S :=
  { s with
    regionsSeen := s.events.filterMap fun e => match e with | .region r => some r | _ => none
    spanRegionsSeen := s.events.filterMap fun e => match e with | .spanRegion sp r => some (sp, r) | _ => none
    spansSeen := s.events.filterMap fun e => match e with | .wholeSpan sp => some sp | _ => none }

/-- formula_dirty.rs 236-238 and 262-264: clearing the three sets. -/
def clearSeen (s : State R S) : State R S :=
  { s with regionsSeen := [], spanRegionsSeen := [], spansSeen := [] }

/-- formula_dirty.rs 218-240 `lease`. -/
def lease (s : State R S) : State R S × Lease R S :=
  let s := rebuild { s with active := none }
  let g := s.leaseGeneration + 1
  let p := s.events.length
  let s := { s with leaseGeneration := g, active := some ⟨g, p, false⟩ }
  (clearSeen s, ⟨g, p, s.events⟩)

/-- formula_dirty.rs 242-266 `extend`. -/
def extend (s : State R S) (l : Lease R S) : Option (State R S × Lease R S) :=
  match s.active with
  | none => none
  | some a =>
    if a.generation ≠ l.generation ∨ a.prefixLen ≠ l.prefixLen ∨ a.extended = true then none
    else
      let p := s.events.length
      let s := { s with active := some ⟨a.generation, p, true⟩ }
      some (clearSeen s, ⟨a.generation, p, s.events.take p⟩)

/-- formula_dirty.rs 285-289: the loop of `ack_sublease`; `i` is the index of the head. -/
def dropOwned (p : Nat) (owned : List Nat) : Nat → List (Event R S) → List (Event R S)
  | _, [] => []
  | i, e :: rest =>
    if i ≥ p ∨ i ∉ owned then e :: dropOwned p owned (i + 1) rest else dropOwned p owned (i + 1) rest

/-- formula_dirty.rs 70-85 `sublease` followed by 273-293 `ack_sublease` (sorting and removing duplicates
from the index list does not change membership). -/
def ackSublease (s : State R S) (l : Lease R S) (owned : List Nat) : State R S × Bool :=
  let owned := owned.filter (fun i => decide (i < l.prefixLen))
  match s.active with
  | none => (s, false)
  | some a =>
    if a.generation ≠ l.generation ∨ a.prefixLen ≠ l.prefixLen then (s, false)
    else
      let p := min l.prefixLen s.events.length
      (rebuild { s with events := dropOwned p owned 0 s.events, active := none }, true)

/-- formula_dirty.rs 268-271 `ack`. -/
def ack (s : State R S) (l : Lease R S) : State R S × Bool := ackSublease s l (List.range l.prefixLen)

/-- formula_dirty.rs 295-305 `release`. -/
def release (s : State R S) (l : Lease R S) : State R S × Bool :=
  match s.active with
  | none => (s, false)
  | some a =>
    if a.generation ≠ l.generation ∨ a.prefixLen ≠ l.prefixLen then (s, false)
    else (rebuild { s with active := none }, true)

/-! ## Histories

Clients keep the leases they were given and may use any of them, old or new, at any time. -/

/-- The queue together with all leases handed out so far, oldest first. -/
structure World (R S : Type) where
  st : State R S := {}
  issued : List (Lease R S) := []

/-- What a client may do. `k` selects a lease handed out earlier. -/
inductive Op (R S : Type)
  | recordRegion (r : R)
  | recordSpanRegion (s : S) (r : R)
  | recordWholeSpans (spans : List S)
  | lease
  | extend (k : Nat)
  | ack (k : Nat) (owned : List Nat)
  | release (k : Nat)

/-- One operation. Using a lease that does not exist does nothing. -/
def World.step (w : World R S) : Op R S → World R S
  | .recordRegion r => { w with st := DirtyLease.recordRegion w.st r }
  | .recordSpanRegion s r => { w with st := DirtyLease.recordSpanRegion w.st s r }
  | .recordWholeSpans ss => { w with st := DirtyLease.recordWholeSpans w.st ss }
  | .lease => ⟨(DirtyLease.lease w.st).1, w.issued ++ [(DirtyLease.lease w.st).2]⟩
  | .extend k =>
    match w.issued[k]? with
    | none => w
    | some l =>
      match DirtyLease.extend w.st l with
      | none => w
      | some (s, l') => ⟨s, w.issued ++ [l']⟩
  | .ack k owned =>
    match w.issued[k]? with
    | none => w
    | some l => { w with st := (ackSublease w.st l owned).1 }
  | .release k =>
    match w.issued[k]? with
    | none => w
    | some l => { w with st := (DirtyLease.release w.st l).1 }

/-- A whole history. -/
def World.run (w : World R S) (ops : List (Op R S)) : World R S := ops.foldl World.step w

end Verif.DirtyLease

/-!
# The change log

`crates/formualizer-eval/src/engine/graph/editor/change_log.rs`. The payload of events that are not compound markers and
the metadata record are type parameters. Sequence numbers and group ids are naturals (the code uses `u64`).
-/

namespace Verif.Undo

/-- `ChangeEvent`, change_log.rs 37-162: compound markers, and everything else. -/
inductive Ev (E : Type)
  | start (desc : String) (depth : Nat)
  | stop (depth : Nat)
  | other (e : E)
  deriving DecidableEq

/-- `ChangeLog`, change_log.rs 165-187; the head of `stack` is the top. -/
structure Log (E M : Type) where
  events : List (Ev E)
  metas : List M
  seqs : List Nat
  groups : List (Option Nat)
  enabled : Bool
  cap : Option Nat
  depth : Nat
  nextSeq : Nat
  stack : List Nat
  nextGid : Nat
  cur : M

variable {E M : Type}

/-- `new`, change_log.rs 190-204; `m` is the default metadata. -/
def Log.new (m : M) : Log E M :=
  { events := [], metas := [], seqs := [], groups := [], enabled := true, cap := none, depth := 0, nextSeq := 0,
    stack := [], nextGid := 1, cur := m }

/-- `clear`, change_log.rs 325-332. -/
def Log.clear (l : Log E M) : Log E M :=
  { l with events := [], metas := [], seqs := [], groups := [], depth := 0, stack := [] }

/-- `enforce_cap`, change_log.rs 217-233. -/
def Log.enforce (l : Log E M) : Log E M :=
  match l.cap with
  | none => l
  | some 0 => l.clear
  | some m =>
    if l.events.length ≤ m then l
    else
      let n := l.events.length - m
      { l with events := l.events.drop n, metas := l.metas.drop n, seqs := l.seqs.drop n, groups := l.groups.drop n }

/-- `set_max_changelog_events`, change_log.rs 212-215. -/
def Log.setCap (l : Log E M) (c : Option Nat) : Log E M := { l with cap := c }.enforce

/-- The four pushes of `record_with_meta`, change_log.rs 252-258. -/
def Log.push (l : Log E M) (e : Ev E) (m : M) : Log E M :=
  { l with
    nextSeq := l.nextSeq + 1
    events := l.events ++ [e]
    metas := l.metas ++ [m]
    seqs := l.seqs ++ [l.nextSeq]
    groups := l.groups ++ [l.stack.head?] }

/-- `record_with_meta`, change_log.rs 250-261. -/
def Log.recordMeta (l : Log E M) (e : Ev E) (m : M) : Log E M := if l.enabled then (l.push e m).enforce else l

/-- `record`, change_log.rs 235-247. -/
def Log.record (l : Log E M) (e : Ev E) : Log E M := l.recordMeta e l.cur

/-- `begin_compound`, change_log.rs 264-284. -/
def Log.begin (l : Log E M) (desc : String) : Log E M :=
  let l := { l with depth := l.depth + 1 }
  let l :=
    if l.depth = 1 then { l with stack := l.nextGid :: l.stack, nextGid := l.nextGid + 1 }
    else
      match l.stack.head? with
      | some g => { l with stack := g :: l.stack }
      | none => l
  if l.enabled then l.record (.start desc l.depth) else l

/-- `end_compound`, change_log.rs 287-297. `depth - 1` underflows when recording the end marker has just cleared the log
(cap 0): the value `none`. -/
def Log.stop (l : Log E M) : Option (Log E M) :=
  if 0 < l.depth then
    let l := if l.enabled then l.record (.stop l.depth) else l
    if l.depth = 0 then none else some { l with depth := l.depth - 1, stack := l.stack.tail }
  else some l

/-- `truncate`, change_log.rs 318-323. -/
def Log.truncate (l : Log E M) (n : Nat) : Log E M :=
  { l with events := l.events.take n, metas := l.metas.take n, seqs := l.seqs.take n, groups := l.groups.take n }

/-- `take_from`, change_log.rs 343-349; an index beyond the end panics (`none`). -/
def Log.takeFrom (l : Log E M) (n : Nat) : Option (List (Ev E) × Log E M) :=
  if n ≤ l.events.length then some (l.events.drop n, l.truncate n) else none

/-- `last_group_indices`, change_log.rs 370-384. -/
def Log.lastGroup (l : Log E M) : List Nat :=
  match (l.groups.reverse.filterMap id).head? with
  | some g => (List.range l.groups.length).filter fun i => l.groups[i]? == some (some g)
  | none => if l.events.length = 0 then [] else [l.events.length - 1]

/-- The public mutators. -/
inductive Op (E M : Type)
  | record (e : E)
  | recordMeta (e : Ev E) (m : M)
  | begin (desc : String)
  | stop
  | truncate (n : Nat)
  | clear
  | takeFrom (n : Nat)
  | setEnabled (b : Bool)
  | setCap (c : Option Nat)
  | setCur (m : M)

/-- One call; `none` when it panics. -/
def Log.step (l : Log E M) : Op E M → Option (Log E M)
  | .record e => some (l.record (.other e))
  | .recordMeta e m => some (l.recordMeta e m)
  | .begin d => some (l.begin d)
  | .stop => l.stop
  | .truncate n => some (l.truncate n)
  | .clear => some l.clear
  | .takeFrom n => (l.takeFrom n).map (·.2)
  | .setEnabled b => some { l with enabled := b }
  | .setCap c => some (l.setCap c)
  | .setCur m => some { l with cur := m }

def Log.run (l : Log E M) : List (Op E M) → Option (Log E M)
  | [] => some l
  | o :: os => (l.step o).bind fun l => l.run os

end Verif.Undo

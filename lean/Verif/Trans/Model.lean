import Verif.Undo.Model

/-!
# Transactions

`crates/formualizer-eval/src/engine/graph/editor/transaction_manager.rs` 1-265 and `transaction_context.rs` 1-203, with
`ChangeLog::take_from`, `clear` and `len` (`change_log.rs` 328-352).

Modelled: the manager, the context, the order of the steps of a rollback, its failures and its panics. The graph is a
parameter: a state, the forward effect `forth` of an event and its inverse `back`, which may fail and then leaves a
state of its own (`VertexEditor::apply_inverse`, vertex_editor.rs 432-605). The log keeps the events alone: its metas,
sequence numbers and groups are cut with them (`Verif.Undo`). The context of a `TransactionContext` is never capped
(`ChangeLog::new`), and recording is enabled whenever the caller can edit. Sizes are unbounded naturals.
-/

namespace Verif.Trans

variable {S E : Type}

/-- The graph as an editor changes it. `back` gives the state left behind and whether it succeeded. -/
structure Graph (S E : Type) where
  forth : E → S → S
  back : E → S → S × Bool

/-- `Transaction`, transaction_manager.rs 30-40. -/
structure Tx where
  id : Nat
  start : Nat
  saves : List (String × Nat)
  deriving DecidableEq, Repr

/-- `TransactionManager`, 76-81, with the global counter behind `TransactionId::new`, 8-28. -/
structure Manager where
  active : Option Tx
  max : Nat
  next : Nat
  deriving DecidableEq, Repr

/-- `TransactionError`, 42-57; the message of a failed rollback is left out. -/
inductive Err
  | alreadyActive
  | noTransaction
  | tooLarge (size max : Nat)
  | rollbackFailed
  | noSavepoint (name : String)
  deriving DecidableEq, Repr

/-- `TransactionContext`, transaction_context.rs 16-20. -/
structure Ctx (S E : Type) where
  graph : S
  log : List E
  mgr : Manager

/-- What a call returns: a transaction id where there is one. `panic` is an arithmetic underflow (of a build that checks
them) or a `split_off` beyond the end. -/
inductive Out
  | ok
  | id (n : Nat)
  | err (e : Err)
  | panic
  deriving DecidableEq, Repr

/-- `with_max_size`, transaction_context.rs 33-40. -/
def Ctx.new (s : S) (max next : Nat) : Ctx S E := ⟨s, [], ⟨none, max, next⟩⟩

/-- transaction_manager.rs 110-122 and transaction_context.rs 49-51. -/
def Ctx.begin (c : Ctx S E) : Ctx S E × Out :=
  match c.mgr.active with
  | some _ => (c, .err .alreadyActive)
  | none => ({ c with mgr := ⟨some ⟨c.mgr.next, c.log.length, []⟩, c.mgr.max, c.mgr.next + 1⟩ }, .id c.mgr.next)

/-- An edit made through `editor()`, transaction_context.rs 61-70: applied and recorded, transaction or not. -/
def Ctx.edit (g : Graph S E) (c : Ctx S E) (e : E) : Ctx S E :=
  { c with graph := g.forth e c.graph, log := c.log ++ [e] }

/-- Setting the active transaction. -/
def Ctx.withTx (c : Ctx S E) (t : Option Tx) : Ctx S E := { c with mgr := { c.mgr with active := t } }

/-- `check_size` and `commit`, transaction_manager.rs 131-136 and 221-232, transaction_context.rs 79-83. -/
def Ctx.commit (c : Ctx S E) : Ctx S E × Out :=
  match c.mgr.active with
  | none => (c, .err .noTransaction)
  | some t =>
    if c.log.length < t.start then (c, .panic)
    else if c.mgr.max < c.log.length - t.start then (c, .err (.tooLarge (c.log.length - t.start) c.mgr.max))
    else (c.withTx none, .id t.id)

/-- `apply_rollback`, transaction_context.rs 160-194, on the changes last first. It stops at the first inverse that
fails. Compound marks go through `back` as well and are expected to do nothing. -/
def undoAll (g : Graph S E) : List E → S → S × Bool
  | [], s => (s, true)
  | e :: es, s =>
    match g.back e s with
    | (s', true) => undoAll g es s'
    | (s', false) => (s', false)

/-- `take_from` and `apply_rollback` with the transaction as it is by then. -/
def Ctx.cut (g : Graph S E) (c : Ctx S E) (n : Nat) (t : Option Tx) : Ctx S E × Out :=
  if c.log.length < n then (c.withTx t, .panic)
  else
    ({ (c.withTx t) with graph := (undoAll g (c.log.drop n).reverse c.graph).1, log := c.log.take n },
      if (undoAll g (c.log.drop n).reverse c.graph).2 then .ok else .err .rollbackFailed)

/-- `rollback_info` takes the transaction first, transaction_manager.rs 145-150; transaction_context.rs 90-100. -/
def Ctx.rollback (g : Graph S E) (c : Ctx S E) : Ctx S E × Out :=
  match c.mgr.active with
  | none => (c, .err .noTransaction)
  | some t => c.cut g t.start none

/-- `add_savepoint`, 160-171; transaction_context.rs 109-112. -/
def Ctx.savepoint (c : Ctx S E) (n : String) : Ctx S E × Out :=
  match c.mgr.active with
  | none => (c, .err .noTransaction)
  | some t => (c.withTx (some { t with saves := t.saves ++ [(n, c.log.length)] }), .ok)

/-- `get_savepoint`, 184-194: the first of the name. -/
def Tx.find (t : Tx) (n : String) : Option Nat := (t.saves.find? fun p => p.1 == n).map (·.2)

/-- `truncate_savepoints`, 200-204. -/
def Tx.trim (t : Tx) (i : Nat) : Tx := { t with saves := t.saves.filter fun p => decide (p.2 < i) }

/-- `rollback_to_savepoint`, transaction_context.rs 122-135. The savepoints are trimmed after `take_from`, which does
not matter unless that panics. -/
def Ctx.rollbackTo (g : Graph S E) (c : Ctx S E) (n : String) : Ctx S E × Out :=
  match c.mgr.active with
  | none => (c, .err .noTransaction)
  | some t =>
    match t.find n with
    | none => (c, .err (.noSavepoint n))
    | some i => if c.log.length < i then (c, .panic) else c.cut g i (some (t.trim i))

/-- `clear_change_log`, transaction_context.rs 158-160. -/
def Ctx.clear (c : Ctx S E) : Ctx S E := { c with log := [] }

/-- What a caller may do. -/
inductive Op (E : Type)
  | begin
  | edit (e : E)
  | commit
  | rollback
  | save (n : String)
  | back (n : String)
  | clear
  deriving DecidableEq, Repr

def Ctx.step (g : Graph S E) (c : Ctx S E) : Op E → Ctx S E × Out
  | .begin => c.begin
  | .edit e => (c.edit g e, .ok)
  | .commit => c.commit
  | .rollback => c.rollback g
  | .save n => c.savepoint n
  | .back n => c.rollbackTo g n
  | .clear => (c.clear, .ok)

/-- A run of calls; a panic ends it. -/
def Ctx.run (g : Graph S E) (c : Ctx S E) : List (Op E) → Option (Ctx S E)
  | [] => some c
  | o :: os => if (c.step g o).2 = .panic then none else (c.step g o).1.run g os

end Verif.Trans

import Verif.Undo.Log

/-!
# Undo and redo over the change log

`crates/formualizer-eval/src/engine/graph/editor/undo_engine.rs`, `vertex_editor.rs` 432-605 (`apply_inverse`),
1466-1550 and 1552-1680 (`set_cell_value`, `set_cell_formula`), `crates/formualizer-workbook/src/workbook.rs` 2149-2300
and 1975-1998, `crates/formualizer-eval/src/engine/eval.rs` 5048-5120 and 5227-5310 (mirroring to the value store).

Modelled: value and formula edits of single cells, and the staged-formula and row-visibility events, which store an old
and a new state for a key (`side`). Not modelled: spills, structural edits, vertex and name events; failures of the graph
operations; the repeated `normalize_stored_literal`.
-/

namespace Verif.Undo

variable {V F M : Type}

/-- What a cell holds. -/
inductive Content (V F : Type)
  | empty
  | value (v : V)
  | formula (f : F)
  deriving DecidableEq

/-- Cell contents and the side tables. -/
structure Sheet (V F : Type) where
  cell : Nat → Content V F
  side : Nat → Option String

/-- `ChangeEvent::SetValue`, `SetFormula`, and `SetRowVisibility` / `StagedFormulaCellChanged`. -/
inductive Edit (V F : Type)
  | setValue (c : Nat) (oldV : Option V) (oldF : Option F) (new : V)
  | setFormula (c : Nat) (oldV : Option V) (oldF : Option F) (new : F)
  | side (k : Nat) (old new : Option String)
  deriving DecidableEq

def Sheet.put (s : Sheet V F) (c : Nat) (x : Content V F) : Sheet V F :=
  { s with cell := fun a => if a = c then x else s.cell a }

def Sheet.putSide (s : Sheet V F) (k : Nat) (x : Option String) : Sheet V F :=
  { s with side := fun a => if a = k then x else s.side a }

/-- Forward effect: `redo`, undo_engine.rs 110-120, and the edits themselves. -/
def forward : Ev (Edit V F) → Sheet V F → Sheet V F
  | .start _ _, s => s
  | .stop _, s => s
  | .other (.setValue c _ _ v), s => s.put c (.value v)
  | .other (.setFormula c _ _ f), s => s.put c (.formula f)
  | .other (.side k _ n), s => s.putSide k n

/-- vertex_editor.rs 441-447 and 456-462: the old formula, else the old value, else nothing. -/
def restored (oldV : Option V) (oldF : Option F) : Content V F :=
  match oldF with
  | some f => .formula f
  | none => match oldV with
    | some v => .value v
    | none => .empty

/-- `apply_inverse` and the side-table inverses. -/
def inverse : Ev (Edit V F) → Sheet V F → Sheet V F
  | .start _ _, s => s
  | .stop _, s => s
  | .other (.setValue c ov of _), s => s.put c (restored ov of)
  | .other (.setFormula c ov of _), s => s.put c (restored ov of)
  | .other (.side k o _), s => s.putSide k o

/-- The open document: workbook contents, change log, and the redo stack (top first). -/
structure Doc (V F M : Type) where
  sheet : Sheet V F
  log : Log (Edit V F) M
  undone : List (List (Ev (Edit V F) × M))

/-- Old state captured by an edit. The graph keeps no values (`value_cache_enabled: false`, graph/mod.rs 1213), so the
old value is seen only if the caller supplies it; `cached` is the last computed value of a formula cell. -/
def oldValue (seen : Bool) (cached : Option V) : Content V F → Option V
  | .empty => none
  | .value v => if seen then some v else none
  | .formula _ => if seen then cached else none

def oldFormula : Content V F → Option F
  | .formula f => some f
  | _ => none

/-- A user's request. `Workbook::set_value` supplies the old value (workbook.rs 2171-2187), the immediate path of
`set_formula` does not (2281-2292). -/
inductive Req (V F : Type)
  | value (c : Nat) (v : V) (seen : Bool) (cached : Option V)
  | formula (c : Nat) (f : F) (seen : Bool) (cached : Option V)
  | side (k : Nat) (new : Option String)
  | begin (desc : String)
  | stop

/-- The event an edit records. -/
def Req.event (s : Sheet V F) : Req V F → Option (Ev (Edit V F))
  | .value c v seen cached => some (.other (.setValue c (oldValue seen cached (s.cell c)) (oldFormula (s.cell c)) v))
  | .formula c f seen cached => some (.other (.setFormula c (oldValue seen cached (s.cell c)) (oldFormula (s.cell c)) f))
  | .side k new => some (.other (.side k (s.side k) new))
  | .begin _ => none
  | .stop => none

/-- One request. -/
def Doc.step (d : Doc V F M) (r : Req V F) : Option (Doc V F M) :=
  match r with
  | .begin desc => some { d with log := d.log.begin desc }
  | .stop => d.log.stop.map fun l => { d with log := l }
  | r =>
    match r.event d.sheet with
    | some ev => some { d with sheet := forward ev d.sheet, log := d.log.record ev }
    | none => some d

def Doc.steps (d : Doc V F M) : List (Req V F) → Option (Doc V F M)
  | [] => some d
  | r :: rs => (d.step r).bind fun d => d.steps rs

/-- `UndoEngine::undo`, undo_engine.rs 55-90; `none` is the error of lines 77-79. -/
def Doc.undo (d : Doc V F M) : Option (Doc V F M) :=
  let idxs := d.log.lastGroup
  if idxs = [] then some d
  else
    let batch := idxs.filterMap fun i => d.log.events[i]?.bind fun e => d.log.metas[i]?.map fun m => (e, m)
    if idxs.max?.map (· + 1) = some d.log.events.length then
      some { sheet := batch.foldr (fun x s => inverse x.1 s) d.sheet
             log := d.log.truncate (idxs.min?.getD 0)
             undone := batch :: d.undone }
    else none

/-- One event of `redo`, undo_engine.rs 110-120. -/
def redoOne (x : Ev (Edit V F) × M) (d : Doc V F M) : Doc V F M :=
  { d with sheet := forward x.1 d.sheet, log := d.log.recordMeta x.1 x.2 }

/-- `UndoEngine::redo`, undo_engine.rs 101-212. -/
def Doc.redo (d : Doc V F M) : Option (Doc V F M) :=
  match d.undone with
  | [] => some d
  | batch :: rest =>
    let d := { d with log := d.log.begin "redo", undone := rest }
    let d := batch.foldl (fun d x => redoOne x d) d
    d.log.stop.map fun l => { d with log := l }

end Verif.Undo

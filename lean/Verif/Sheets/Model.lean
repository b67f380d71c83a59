/-
Sheets have their names in two places: the registry of the graph, which does not distinguish capitals, and the value storage,
which does (property C65).

Sources: /repo/crates/formualizer-eval/src/engine/graph/sheets.rs 10-60, 186-192, 249-268, 297-318 (`add_sheet`, `remove_sheet`,
`rename_sheet`, `duplicate_sheet` of the graph), /repo/crates/formualizer-eval/src/engine/eval.rs 3927-4062 (the same of the engine),
15329-15395 and 16751-16790 (`mirror_value_to_overlay`, `set_cell_value`), 17263-17273 (`read_cell_value`),
/repo/crates/formualizer-eval/src/arrow_store/mod.rs 386-391 (`sheet`, `sheet_mut`).

A storage sheet is its name and a function from cells to values; `K` are the positions of cells.  Formulas, names, formats, spans
and the effect of the operations on them are left out.
-/
import Verif.Arena.Registry

namespace Verif.Sheets

open Verif.Arena

variable {K V : Type} [DecidableEq K]

/-- The values of a sheet. -/
abbrev Cells (K V : Type) := K → Option V

/-- No values. -/
def noCells : Cells K V := fun _ => none

/-- arrow_store/mod.rs 386-391, `sheet`: the first sheet of exactly this name. -/
def find {D : Type} : List (String × D) → String → Option D
  | [], _ => none
  | (n, d) :: l, s => if n = s then some d else find l s

/-- eval.rs 4016-4027, `rename_sheet_in_arrow_store`: the first sheet of exactly this name gets the new name. -/
def renameFirst {D : Type} : List (String × D) → String → String → List (String × D)
  | [], _, _ => []
  | (n, d) :: l, a, b => if n = a then (b, d) :: l else (n, d) :: renameFirst l a b

/-- A change of the first sheet of exactly this name. -/
def modifyFirst {D : Type} : List (String × D) → String → (D → D) → List (String × D)
  | [], _, _ => []
  | (n, d) :: l, a, f => if n = a then (n, f d) :: l else (n, d) :: modifyFirst l a f

/-- The engine: the registry of the graph and the storage (eval.rs, fields `graph.sheet_reg` and `arrow_sheets.sheets`). -/
structure Engine (K V : Type) where
  reg : Reg
  store : List (String × Cells K V)

/-- graph/sheets.rs 24-35 and 186-192: `remove_sheet` of the graph, on the registry. -/
def graphRemove (lower : String → String) (g : Reg) (id : Nat) : Option Reg :=
  if g.name id = "" then none
  else if (g.names.filter (· ≠ "")).length ≤ 1 then none
  else g.remove lower id

/-- graph/sheets.rs 249-268: `rename_sheet` of the graph, on the registry. -/
def graphRename (lower : String → String) (g : Reg) (id : Nat) (new : String) : Option Reg :=
  if new = "" ∨ 255 < new.utf8ByteSize then none
  else if g.name id = "" then none
  else
    match g.getId lower new with
    | some other => if other ≠ id then none else some g
    | none => g.rename lower id new

/-- eval.rs 3974-3990, `ensure_arrow_sheet`. -/
def ensure (store : List (String × Cells K V)) (name : String) : List (String × Cells K V) :=
  if (find store name).isSome then store else store ++ [(name, noCells)]

/-- What a user does. -/
inductive Op (K V : Type) where
  | add (name : String)
  | remove (id : Nat)
  | rename (id : Nat) (name : String)
  | duplicate (source name : String)
  | write (sheet : String) (cell : K) (value : Option V)

/-- What the engine does; the second component tells whether it reports success. -/
def Engine.step (lower : String → String) (w : Engine K V) : Op K V → Engine K V × Bool
  -- eval.rs 3927-3933, `add_sheet`
  | .add name => (⟨(w.reg.idFor lower name).1, ensure w.store name⟩, true)
  -- eval.rs 3991-4013, `remove_sheet`
  | .remove id =>
    match graphRemove lower w.reg id with
    | none => (w, false)
    | some g => (⟨g, w.store.filter (·.1 ≠ w.reg.name id)⟩, true)
  -- eval.rs 4029-4059, `rename_sheet`
  | .rename id new =>
    let store := renameFirst w.store (w.reg.name id) new
    match graphRename lower w.reg id new with
    | some g => (⟨g, store⟩, true)
    | none => (⟨w.reg, renameFirst store new (w.reg.name id)⟩, false)
  -- eval.rs 3935-3972, `duplicate_sheet`
  | .duplicate source new =>
    if w.reg.getId lower source = none ∨ new = "" ∨ 255 < new.utf8ByteSize ∨ (w.reg.getId lower new).isSome then (w, false)
    else
      let g := (w.reg.idFor lower new).1
      match find w.store source with
      | some d => (⟨g, w.store ++ [(new, d)]⟩, true)
      | none => (⟨g, ensure w.store new⟩, true)
  -- eval.rs 16751-16790, `set_cell_value`, with 15329-15395
  | .write sheet cell value =>
    (⟨(w.reg.idFor lower sheet).1,
      modifyFirst (ensure w.store sheet) sheet fun d k => if k = cell then value else d k⟩, true)

/-- eval.rs 17263-17273, `read_cell_value`: what is read under a name as the user spells it. -/
def Engine.read (w : Engine K V) (sheet : String) (cell : K) : Option V := (find w.store sheet).bind fun d => d cell

/-- What formulas read from a sheet: stored references carry its number, which is turned into the name of the registry
(data_store.rs 690-696), under which the storage is searched. -/
def Engine.formulaRead (w : Engine K V) (id : Nat) (cell : K) : Option V := w.read (w.reg.name id) cell

/-! ### The specification -/

/-- A workbook: the sheets by number, each with its name and its values; removed sheets leave a gap. -/
abbrev Book (K V : Type) := List (Option (String × Cells K V))

/-- The sheet of a name, in any case. -/
def Book.lookup (lower : String → String) (b : Book K V) (s : String) : Option Nat :=
  b.findIdx? fun e => e.any fun p => lower p.1 = lower s

/-- What the operations are to do. -/
def Book.step (lower : String → String) (b : Book K V) : Op K V → Book K V × Bool
  | .add name => if (b.lookup lower name).isSome then (b, true) else (b ++ [some (name, noCells)], true)
  | .remove id =>
    if (b[id]?).join = none ∨ (b.filter (·.isSome)).length ≤ 1 then (b, false) else (b.set id none, true)
  | .rename id new =>
    match (b[id]?).join with
    | none => (b, false)
    | some (_, d) =>
      if new = "" ∨ 255 < new.utf8ByteSize ∨ (b.lookup lower new).any (· ≠ id) then (b, false) else (b.set id (some (new, d)), true)
  | .duplicate source new =>
    match (b.lookup lower source).bind fun i => (b[i]?).join with
    | none => (b, false)
    | some (_, d) =>
      if new = "" ∨ 255 < new.utf8ByteSize ∨ (b.lookup lower new).isSome then (b, false) else (b ++ [some (new, d)], true)
  | .write sheet cell value =>
    let b := if (b.lookup lower sheet).isSome then b else b ++ [some (sheet, noCells)]
    match b.lookup lower sheet with
    | none => (b, true)
    | some i => (b.modify i fun e => e.map fun (n, d) => (n, fun k => if k = cell then value else d k), true)

/-- The engine as a workbook: under each number the name that the registry has, and what formulas read. -/
def Engine.book (w : Engine K V) : Book K V :=
  w.reg.names.map fun n => if n = "" then none else some (n, fun k => w.read n k)

end Verif.Sheets

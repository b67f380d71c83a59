/-
Formulas whose sheets are removed and come back (property C66).

Sources: /repo/crates/formualizer-eval/src/engine/graph/sheets.rs 10-21 (`add_sheet`), 24-192 (`remove_sheet`), 194-247
(`tombstone_marker`, `rewrite_formula_sheet_to_tombstone`, `heal_orphaned_formulas`), 249-294 (`rename_sheet`);
/repo/crates/formualizer-eval/src/engine/mod.rs 1264-1284 (`TombstoneRegistry`); /repo/crates/formualizer-eval/src/engine/graph/mod.rs
1343-1356 (`sheet_id_mut`, `resolve_existing_sheet_id`), 2100-2320 (`set_cell_formula`), 4134-4161 (`mark_as_ref_error`, `is_ref_error`),
4417-4468 (`rebuild_formula_dependencies`); /repo/crates/formualizer-eval/src/engine/graph/formula_analysis.rs 63-180
(`collect_graph_reference`); /repo/crates/formualizer-parse/src/parser.rs 2021-2081 (`update_sheet_references`).

A formula is the list of the sheets of its references, in order: everything else in it stays as it is.  How sheets are stored in
formulas is as in the formula store (property C63): by number if the sheet was known, otherwise as text.  Of the dependencies
only the sheets are kept.  Names, tables, 3D references, self-references and cached values are left out.  The lists of waiting
formulas are sets: the code goes through them one by one, and what it does to one formula does not depend on the others.
-/
import Verif.Sheets.Model

namespace Verif.Sheets

open Verif.Arena

/-- How a stored reference names its sheet (arena/ast.rs, `SheetKey`). -/
inductive Key where
  | id (i : Nat)
  | text (s : String)
deriving DecidableEq

/-- A formula in the graph: the sheet it is on, the sheets of its references (`none` is its own), the sheets of its
dependencies, and whether it is marked as `#REF!`. -/
structure Fml where
  home : Nat
  refs : List (Option Key)
  deps : List Nat
  bad : Bool
deriving DecidableEq

/-- The graph: sheets, formulas by vertex, and the formulas that wait for a sheet of a name. -/
structure Graph where
  reg : Reg
  fmls : Nat → Option Fml
  waiting : String → Nat → Bool

/-- graph/sheets.rs 194-196, `tombstone_marker`. -/
def marker (s : String) : String := "__FZ_MISSING_SHEET__" ++ s

/-- data_store.rs 690-696: the name of the sheet of a reference. -/
def readKey (g : Reg) : Key → String
  | .id i => g.name i
  | .text s => s

/-- data_store.rs 465-471: how the sheet of a reference is stored. -/
def storeKey (lower : String → String) (g : Reg) (s : String) : Key :=
  match g.getId lower s with
  | some i => .id i
  | none => .text s

/-- A formula as it is shown: the names of the sheets of its references. -/
def shown (g : Reg) (refs : List (Option Key)) : List (Option String) := refs.map (Option.map (readKey g))

/-- parser.rs 2021-2081, `update_sheet_references`. -/
def update (a b : String) (names : List (Option String)) : List (Option String) :=
  names.map fun n => if n = some a then some b else n

/-- Storing a formula. -/
def storeAllKeys (lower : String → String) (g : Reg) (names : List (Option String)) : List (Option Key) := names.map (Option.map (storeKey lower g))

/-- formula_analysis.rs 63-180 on cells and ranges: the sheets that a formula depends on; `none` if one is unknown. -/
def extract (lower : String → String) (g : Reg) (home : Nat) (names : List (Option String)) : Option (List Nat) :=
  names.mapM fun n => match n with
    | none => some home
    | some s => g.getId lower s

/-- graph/mod.rs 4417-4468, `rebuild_formula_dependencies`. -/
def rebuildDeps (lower : String → String) (g : Reg) (f : Fml) (names : List (Option String)) : Fml :=
  match extract lower g f.home names with
  | none => { f with
    deps := []
    bad := true }
  | some d => { f with
    deps := d
    bad := false }

/-- graph/sheets.rs 198-214, `rewrite_formula_sheet_to_tombstone`. -/
def bury (lower : String → String) (g : Reg) (name : String) (f : Fml) : Fml :=
  let names := update name (marker name) (shown g f.refs)
  if names = shown g f.refs then f else { f with refs := storeAllKeys lower g names }

/-- graph/sheets.rs 216-247, the body of the loop of `heal_orphaned_formulas`. -/
def healOne (lower : String → String) (g : Reg) (name : String) (f : Fml) : Fml :=
  if f.bad then
    let names := update (marker name) name (shown g f.refs)
    if names = shown g f.refs then f else rebuildDeps lower g { f with refs := storeAllKeys lower g names } names
  else f

/-- graph/sheets.rs 216-247, `heal_orphaned_formulas`, with `take_orphans`. -/
def heal (lower : String → String) (g : Graph) (name : String) : Graph where
  reg := g.reg
  fmls v := if g.waiting name v then (g.fmls v).map (healOne lower g.reg name) else g.fmls v
  waiting s v := if s = name then false else g.waiting s v

/-- What a user does. -/
inductive FOp where
  | add (name : String)
  | touch (name : String)
  | remove (id : Nat)
  | rename (id : Nat) (name : String)
  | set (v home : Nat) (names : List (Option String))
  | clear (v : Nat)

/-- The graph after an operation; what is refused leaves it as it is. -/
def Graph.step (lower : String → String) (g : Graph) : FOp → Graph
  -- graph/sheets.rs 10-21, `add_sheet`
  | .add name =>
    match g.reg.getId lower name with
    | some _ => g
    | none => heal lower { g with reg := (g.reg.idFor lower name).1 } name
  -- graph/mod.rs 1343-1345, `sheet_id_mut`, as `set_cell_value` uses it (1857)
  | .touch name => { g with reg := (g.reg.idFor lower name).1 }
  -- graph/sheets.rs 24-192, `remove_sheet`
  | .remove id =>
    match graphRemove lower g.reg id with
    | none => g
    | some reg =>
      { reg := reg
        fmls := fun v => match g.fmls v with
          | none => none
          | some f =>
            if f.home = id then none
            else if id ∈ f.deps then
              some { bury lower g.reg (g.reg.name id) f with
                deps := f.deps.filter (· ≠ id)
                bad := true }
            else some f
        waiting := fun s v => g.waiting s v || (decide (s = g.reg.name id) && (g.fmls v).any fun f => id ∈ f.deps) }
  -- graph/sheets.rs 249-294, `rename_sheet`
  | .rename id new =>
    match graphRename lower g.reg id new with
    | none => g
    | some reg =>
      match g.reg.getId lower new with
      | some _ => g
      | none =>
        let old := g.reg.name id
        let h := heal lower { g with reg := reg } new
        { h with fmls := fun v => (h.fmls v).map fun f =>
            let names := update old new (shown reg f.refs)
            if names = shown reg f.refs then f else { rebuildDeps lower reg f names with refs := storeAllKeys lower reg names } }
  -- graph/mod.rs 2100-2320, `set_cell_formula`: refused if a sheet is unknown
  | .set v home names =>
    if g.reg.name home = "" then g
    else
      match extract lower g.reg home names with
      | none => g
      | some deps => { g with fmls := fun u => if u = v then some ⟨home, storeAllKeys lower g.reg names, deps, false⟩ else g.fmls u }
  | .clear v => { g with fmls := fun u => if u = v then none else g.fmls u }

/-! ### The specification -/

/-- What a reference means: its own sheet, a sheet that is there, or one that is missing and was called so. -/
inductive Target where
  | own
  | live (i : Nat)
  | missing (s : String)
deriving DecidableEq

/-- A formula: the sheet it is on, the meanings of its references, and whether one of several missing sheets has come back. -/
structure SFml where
  home : Nat
  targets : List Target
  half : Bool

/-- The sheets and the formulas. -/
structure Spec where
  reg : Reg
  fmls : Nat → Option SFml

/-- A sheet that is missing comes back under a number. -/
def Target.restore (s : String) (i : Nat) : Target → Target
  | .missing t => if t = s then .live i else .missing t
  | t => t

/-- A sheet that was called so is removed. -/
def Target.lose (s : String) (i : Nat) : Target → Target
  | .live j => if j = i then .missing s else .live j
  | t => t

/-- Does the reference miss its sheet? -/
def Target.isMissing : Target → Bool
  | .missing _ => true
  | _ => false

/-- All references to the sheet are restored. -/
def SFml.restore (s : String) (i : Nat) (f : SFml) : SFml :=
  let t := f.targets.map (Target.restore s i)
  ⟨f.home, t, if t = f.targets then f.half else t.any Target.isMissing⟩

/-- What the operations are to do. -/
def Spec.step (lower : String → String) (g : Spec) : FOp → Spec
  | .add name | .touch name =>
    match g.reg.getId lower name with
    | some _ => g
    | none =>
      let x := g.reg.idFor lower name
      ⟨x.1, fun v => (g.fmls v).map (SFml.restore name x.2)⟩
  | .remove id =>
    match graphRemove lower g.reg id with
    | none => g
    | some reg =>
      ⟨reg, fun v => match g.fmls v with
        | none => none
        | some f => if f.home = id then none else some ⟨f.home, f.targets.map (Target.lose (g.reg.name id) id), f.half⟩⟩
  | .rename id new =>
    match graphRename lower g.reg id new with
    | none => g
    | some reg =>
      match g.reg.getId lower new with
      | some _ => g
      | none => ⟨reg, fun v => (g.fmls v).map (SFml.restore new id)⟩
  | .set v home names =>
    if g.reg.name home = "" ∨ (names.any fun n => n.any fun s => (g.reg.getId lower s).isNone) = true then g
    else ⟨g.reg, fun u => if u = v then some ⟨home, names.map fun n => match n with
      | none => .own
      | some s => match g.reg.getId lower s with
        | some i => .live i
        | none => .missing s, false⟩ else g.fmls u⟩
  | .clear v => ⟨g.reg, fun u => if u = v then none else g.fmls u⟩

/-- How a reference is shown. -/
def Target.show (g : Reg) : Target → Option String
  | .own => none
  | .live i => some (g.name i)
  | .missing s => some (marker s)

end Verif.Sheets

/-
Tables: the cells a structured reference selects.

Code: crates/formualizer-eval/src/engine/graph/tables.rs (all of it),
graph/mod.rs 2383-2530, ingest_pipeline.rs 579-672, eval.rs 9727-9802 and
24305-24421, inspect.rs 1443-1588.

Simplified: texts are lists of characters; `str::to_lowercase` is a parameter
`fold`; rows and columns are natural numbers (the code's are `u32` and `usize`
below 2^20, so no sum overflows); error messages are left out; the maps of tables
are functions; the vertices of tables and the registration of their cells as
dependencies are not modelled; reading cells through the area is not modelled.
-/
import Verif.Struct.Model
import Mathlib.Data.List.Lex
import Mathlib.Data.Char

namespace Verif.Tables

open Verif.Struct (Str Spec Special RowSpec)

/-- graph/tables.rs 12-21 `TableEntry`; places count from 0. -/
structure Table where
  name : Str
  sheet : Nat
  r0 : Nat
  c0 : Nat
  r1 : Nat
  c1 : Nat
  header : Bool
  headers : List Str
  totals : Bool
  deriving DecidableEq

/-- The kinds of errors. -/
inductive Err where
  | ref | name | value | nimpl
  deriving DecidableEq

/-- A rectangle with both corners. -/
structure Area where
  r0 : Nat
  c0 : Nat
  r1 : Nat
  c1 : Nat
  deriving DecidableEq

/-- graph/tables.rs 28-33 and ingest_pipeline.rs 69-74 `col_index`: the first header
that is the same in lower case. -/
def Table.index (fold : Str → Str) (t : Table) (n : Str) : Option Nat :=
  t.headers.findIdx? fun h => fold h = fold n

/-- eval.rs 24321-24325. -/
def Table.dataFirst (t : Table) : Nat := if t.header then t.r0 + 1 else t.r0

/-- eval.rs 24326-24330, with `saturating_sub`. -/
def Table.dataLast (t : Table) : Nat := if t.totals then t.r1 - 1 else t.r1

/-- eval.rs 24332-24338 `select`: a view of no cells, or the rectangle. -/
def select (sr sc er ec : Nat) : Option Area :=
  if sr > er ∨ sc > ec then none else some ⟨sr, sc, er, ec⟩

/-- eval.rs 24346-24375, the columns named by a reference. -/
def Table.columns (fold : Str → Str) (t : Table) (m n : Str) : Except Err (Nat × Nat) :=
  match t.index fold m with
  | none => .error .ref
  | some i =>
    match t.index fold n with
    | none => .error .ref
    | some j => if i > j then .ok (t.c0 + j, t.c0 + i) else .ok (t.c0 + i, t.c0 + j)

/-- eval.rs 24305-24421, the cells a formula reads through a reference to a table of
the workbook. -/
def evalArea (fold : Str → Str) (t : Table) : Option Spec → Except Err (Option Area)
  | none => .error .nimpl
  | some (.column n) =>
    match t.index fold n with
    | none => .error .ref
    | some i => .ok (select t.dataFirst (t.c0 + i) t.dataLast (t.c0 + i))
  | some (.columns m n) => (t.columns fold m n).map fun p => select t.dataFirst p.1 t.dataLast p.2
  | some .all | some (.item .all) => .ok (select t.r0 t.c0 t.r1 t.c1)
  | some .data | some (.item .data) => .ok (select t.dataFirst t.c0 t.dataLast t.c1)
  | some .headers | some (.item .headers) => .ok (if t.header then select t.r0 t.c0 t.r0 t.c1 else none)
  | some .totals | some (.item .totals) => .ok (if t.totals then select t.r1 t.c0 t.r1 t.c1 else none)
  | some (.item .thisRow) => .error .nimpl
  | some (.row _) | some (.combo _) => .error .nimpl

/-! ### The inspection of a formula -/

/-- A letter of the alphabet in lower case, any other character as it is. -/
def asciiLower (s : Str) : Str := s.map Char.toLower

/-- inspect.rs 1461-1466 `col_index`, with `eq_ignore_ascii_case`. -/
def Table.asciiIndex (t : Table) (n : Str) : Option Nat :=
  t.headers.findIdx? fun h => asciiLower h = asciiLower n

/-- inspect.rs 1458, counting from 1. -/
def Table.dataFirst1 (t : Table) : Nat := t.r0 + 1 + t.header.toNat

/-- inspect.rs 1459, counting from 1. -/
def Table.dataLast1 (t : Table) : Nat := t.r1 + 1 - t.totals.toNat

/-- inspect.rs 1497-1508 and 1532-1539, the columns of a range, counting from the
first column of the table. -/
def Table.asciiColumns (t : Table) (m n : Str) : Option (Nat × Nat) :=
  match t.asciiIndex m, t.asciiIndex n with
  | some i, some j => some (if i > j then (j, i) else (i, j))
  | _, _ => none

/-- What the loop over the parts of a combination has found: the rows, the columns
and whether the current row is meant. -/
structure Found where
  r0 : Nat
  r1 : Nat
  cols : Option (Nat × Nat)
  thisRow : Bool

/-- inspect.rs 1525-1561, the loop over the parts. -/
def Table.parts (t : Table) : List Spec → Found → Option Found
  | [], f => some f
  | p :: ps, f =>
    match p with
    | .item .thisRow => t.parts ps { f with thisRow := true }
    | .column n =>
      match t.asciiIndex n with
      | none => none
      | some i => t.parts ps { f with cols := some (i, i) }
    | .columns m n =>
      match t.asciiColumns m n with
      | none => none
      | some q => t.parts ps { f with cols := some q }
    | .data | .item .data => t.parts ps { f with r0 := t.dataFirst1, r1 := t.dataLast1 }
    | .headers | .item .headers => if t.header then t.parts ps { f with r1 := f.r0 } else none
    | .totals | .item .totals => if t.totals then t.parts ps { f with r0 := f.r1 } else none
    | .all | .item .all => t.parts ps f
    | .row _ | .combo _ => none

/-- inspect.rs 1573-1575. -/
def proper (a : Area) : Option Area := if a.r0 > a.r1 ∨ a.c0 > a.c1 then none else some a

/-- inspect.rs 1562-1571, after the loop; `row` is the row of the formula, from 1. -/
def Table.found (t : Table) (row : Nat) (f : Found) : Option Area :=
  if f.thisRow ∧ (row < t.dataFirst1 ∨ row > t.dataLast1) then none
  else
    let a := if f.thisRow then (row, row) else (f.r0, f.r1)
    match f.cols with
    | none => proper ⟨a.1, t.c0 + 1, a.2, t.c1 + 1⟩
    | some (i, j) =>
      let a := if f.thisRow then a else (t.dataFirst1, t.dataLast1)
      proper ⟨a.1, t.c0 + 1 + i, a.2, t.c0 + 1 + j⟩

/-- inspect.rs 1443-1588 `resolve_table_area`, the cells reported to be read by a
formula in row `row`; all counting from 1. -/
def inspectArea (t : Table) (row : Nat) : Option Spec → Option Area
  | none => none
  | some .all | some (.item .all) => proper ⟨t.r0 + 1, t.c0 + 1, t.r1 + 1, t.c1 + 1⟩
  | some .data | some (.item .data) => proper ⟨t.dataFirst1, t.c0 + 1, t.dataLast1, t.c1 + 1⟩
  | some .headers | some (.item .headers) =>
    if t.header then proper ⟨t.r0 + 1, t.c0 + 1, t.r0 + 1, t.c1 + 1⟩ else none
  | some .totals | some (.item .totals) =>
    if t.totals then proper ⟨t.r1 + 1, t.c0 + 1, t.r1 + 1, t.c1 + 1⟩ else none
  | some (.column n) =>
    match t.asciiIndex n with
    | none => none
    | some i => proper ⟨t.dataFirst1, t.c0 + 1 + i, t.dataLast1, t.c0 + 1 + i⟩
  | some (.columns m n) =>
    match t.asciiColumns m n with
    | none => none
    | some (i, j) => proper ⟨t.dataFirst1, t.c0 + 1 + i, t.dataLast1, t.c0 + 1 + j⟩
  | some (.item .thisRow) | some (.row .current) =>
    if row < t.dataFirst1 ∨ row > t.dataLast1 then none else proper ⟨row, t.c0 + 1, row, t.c1 + 1⟩
  | some (.row _) => none
  | some (.combo ps) =>
    match t.parts ps ⟨t.r0 + 1, t.r1 + 1, none, false⟩ with
    | none => none
    | some f => t.found row f

/-! ### Targets -/

/-- target_preparation.rs 56-67 `TableSelection`. -/
inductive Selection where
  | whole | headers | data | totals
  | column (n : Str)
  | columns (m n : Str)

/-- eval.rs 9790-9798, the end of `table_selection_region`; `data` says that the
data were asked for. -/
def Table.region (t : Table) (data : Bool) (r0 c0 r1 c1 : Nat) : Except Err Area :=
  let p := if r0 > r1 ∧ data then (t.r0 + 1, t.r0 + 1) else (r0, r1)
  if p.1 > p.2 ∨ c0 > c1 then .error .value else .ok ⟨p.1, c0, p.2, c1⟩

/-- eval.rs 9727-9806 `table_selection_region`, counting from 1. -/
def targetArea (fold : Str → Str) (t : Table) : Selection → Except Err Area
  | .whole => t.region false (t.r0 + 1) (t.c0 + 1) (t.r1 + 1) (t.c1 + 1)
  | .headers => if t.header then t.region false (t.r0 + 1) (t.c0 + 1) (t.r0 + 1) (t.c1 + 1) else .error .value
  | .data => t.region true (if t.header then t.r0 + 2 else t.r0 + 1) (t.c0 + 1) (if t.totals then t.r1 else t.r1 + 1) (t.c1 + 1)
  | .totals => if t.totals then t.region false (t.r1 + 1) (t.c0 + 1) (t.r1 + 1) (t.c1 + 1) else .error .value
  | .column n =>
    match t.index fold n with
    | none => .error .name
    | some i => t.region false (t.r0 + 1) (t.c0 + 1 + i) (t.r1 + 1) (t.c0 + 1 + i)
  | .columns m n =>
    match t.index fold m, t.index fold n with
    | some i, some j =>
      if i > j then .error .value else t.region false (t.r0 + 1) (t.c0 + 1 + i) (t.r1 + 1) (t.c0 + j + 1)
    | _, _ => .error .name

/-! ### The current row -/

/-- A place on a sheet, from 0. -/
structure Cell where
  sheet : Nat
  row : Nat
  col : Nat
  deriving DecidableEq

/-- graph/mod.rs 2502-2512. -/
def Table.holds (t : Table) (c : Cell) : Bool :=
  t.sheet = c.sheet && t.r0 ≤ c.row && c.row ≤ t.r1 && t.c0 ≤ c.col && c.col ≤ t.c1

/-- graph/mod.rs 2514-2516; the product of two numbers of at most 2^20 is within `u64`. -/
def Table.size (t : Table) : Nat := (t.r1 - t.r0 + 1) * (t.c1 - t.c0 + 1)

/-- graph/mod.rs 2518-2526, one turn of the loop.  Texts are compared by their bytes
in the code, which is the order of their characters. -/
def better (best : Option Table) (t : Table) : Option Table :=
  match best with
  | none => some t
  | some b => if t.size < b.size ∨ (t.size = b.size ∧ t.name < b.name) then some t else best

/-- graph/mod.rs 2493-2530 `find_table_containing_cell`; the tables in any order. -/
def containing (ts : List Table) (c : Cell) : Option Table :=
  ts.foldl (fun best t => if t.holds c then better best t else best) none

/-- graph/mod.rs 2405-2431, the loop over the parts: whether the current row was
asked for and the column. -/
def rowParts : List Spec → Bool → Option Str → Except Err (Bool × Option Str)
  | [], saw, col => .ok (saw, col)
  | .item .thisRow :: ps, _, col => rowParts ps true col
  | .column n :: ps, saw, none => rowParts ps saw (some n)
  | _, _, _ => .error .nimpl

/-- graph/mod.rs 2402-2446, the column of a reference to the current row. -/
def rowColumn : Option Spec → Except Err Str
  | some (.combo ps) =>
    match rowParts ps false none with
    | .ok (true, some n) => .ok n
    | .ok _ => .error .nimpl
    | .error e => .error e
  | _ => .error .nimpl

/-- graph/mod.rs 2383-2490 `rewrite_structured_reference` and ingest_pipeline.rs
579-672 for a reference without a table's name in the cell `at_`: the cell it is
replaced by. -/
def rewriteRow (fold : Str → Str) (ts : List Table) (at_ : Cell) (spec : Option Spec) : Except Err Cell :=
  match rowColumn spec with
  | .error e => .error e
  | .ok n =>
    match containing ts at_ with
    | none => .error .name
    | some t =>
      if t.header ∧ at_.row = t.r0 then .error .ref
      else
        match t.index fold n with
        | none => .error .ref
        | some i => .ok ⟨at_.sheet, at_.row, t.c0 + i⟩

/-! ### The names of tables -/

/-- The tables of a workbook: `tables` and `tables_lookup` of the graph; `sensitive`
is `case_sensitive_tables`. -/
structure Book where
  sensitive : Bool
  tables : Str → Option Table
  lookup : Str → Option Str

/-- graph/tables.rs 37-44 `table_lookup_key`. -/
def Book.key (fold : Str → Str) (b : Book) (n : Str) : Str := if b.sensitive then n else fold n

/-- A map with one more entry. -/
def put {α : Type} (f : Str → Option α) (k : Str) (v : Option α) : Str → Option α :=
  fun x => if x = k then v else f x

/-- graph/tables.rs 51-60 `resolve_table_entry`. -/
def Book.resolve (fold : Str → Str) (b : Book) (n : Str) : Option Table :=
  if b.sensitive then b.tables n else (b.lookup (b.key fold n)).bind b.tables

/-- graph/tables.rs 75-122 `define_table`. -/
def Book.define (fold : Str → Str) (b : Book) (t : Table) : Except Err Book :=
  if t.name = [] then .error .name
  else match b.lookup (b.key fold t.name) with
    | some _ => .error .name
    | none => .ok { b with tables := put b.tables t.name (some t), lookup := put b.lookup (b.key fold t.name) (some t.name) }

/-- graph/tables.rs 124-157 `update_table`; `t` has the new range and headers. -/
def Book.update (fold : Str → Str) (b : Book) (t : Table) : Except Err Book :=
  match b.lookup (b.key fold t.name) with
  | none => .error .name
  | some canon =>
    match b.tables canon with
    | none => .error .name
    | some old => .ok { b with tables := put b.tables canon (some { t with name := old.name }) }

/-- graph/tables.rs 159-189 `delete_table`. -/
def Book.delete (fold : Str → Str) (b : Book) (n : Str) : Except Err Book :=
  match b.lookup (b.key fold n) with
  | none => .error .name
  | some canon =>
    match b.tables canon with
    | none => .error .name
    | some _ => .ok { b with tables := put b.tables canon none, lookup := put b.lookup (b.key fold canon) none }

/-- What can be done with tables. -/
inductive Op where
  | define (t : Table)
  | update (t : Table)
  | delete (n : Str)

/-- One call; an error leaves the tables as they are. -/
def Book.step (fold : Str → Str) (b : Book) (o : Op) : Book :=
  match (match o with
    | .define t => b.define fold t
    | .update t => b.update fold t
    | .delete n => b.delete fold n) with
  | .ok b' => b'
  | .error _ => b

/-- A workbook without tables. -/
def Book.empty (sensitive : Bool) : Book := ⟨sensitive, fun _ => none, fun _ => none⟩

end Verif.Tables

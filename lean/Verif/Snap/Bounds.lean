/-!
# Used rows and columns kept by data snapshot

Model of `/repo/crates/formualizer-eval/src/engine/eval.rs` 14929-14994 (`arrow_used_row_bounds`), 15216-15325 (rows of formulas, union), 22988-23137 (`RowBoundsCache`, `UsedAxisBoundsCache`), 23898-23983
(`used_rows_for_columns`, `used_cols_for_rows`), 5379-5390 and 16786 (edits count the snapshot up).  Evaluation writes results and spilled cells without a new snapshot (25358-25490).  How a column is scanned in its chunks
(14996-15140) is left out: a sheet is the list of its cells that are not empty.  One lock is one step.
The two tables of `UsedAxisBoundsCache` share a snapshot number; here each has its own, which gives the same answers because a table is only read when its number is the current one.
-/

namespace Verif.Snap

/-- A sheet: the number of stored columns, its cells that are not empty, its formulas and all its vertices, as rows and columns from 0. -/
structure Sheet where
  ncols : Nat := 0
  used : List (Nat × Nat) := []
  formulas : List (Nat × Nat) := []
  vertices : List (Nat × Nat) := []

abbrev Book := Nat → Sheet

abbrev Bounds := Option (Nat × Nat)

/-- Smallest and largest of some numbers. -/
def bounds : List Nat → Bounds
  | [] => none
  | n :: ns => match bounds ns with
    | none => some (n, n)
    | some (a, b) => some (min n a, max n b)

/-- `scan_column_used_bounds`: the first and the last row of a column that is used. -/
def scan (s : Sheet) (c : Nat) : Bounds := bounds ((s.used.filter fun p => decide (p.2 = c)).map Prod.fst)

/-- A table with the snapshot for which it holds: eval.rs 22989-23026 and 23028-23137. -/
structure Cache (K V : Type) where
  snapshot : Nat := 0
  map : List (K × V) := []

/-- eval.rs 23002-23012, 23067-23086. -/
def Cache.get {K V : Type} [BEq K] (c : Cache K V) (k : K) (snap : Nat) : Option V := if c.snapshot ≠ snap then none else c.map.lookup k

/-- eval.rs 23013-23025, 23059-23065, 23088-23101. -/
def Cache.put {K V : Type} (c : Cache K V) (k : K) (v : V) (snap : Nat) : Cache K V := if c.snapshot ≠ snap then ⟨snap, [(k, v)]⟩ else { c with map := (k, v) :: c.map }

abbrev RowCache := Cache (Nat × Nat) Bounds
abbrev SpanCache := Cache (Nat × Nat × Nat) Bounds

/-- `min` and `max` where one may be missing. -/
def join (f : Nat → Nat → Nat) : Option Nat → Nat → Option Nat
  | none, n => some n
  | some m, n => some (f m n)

/-- One of the loops over columns (eval.rs 14948-14969 and 14971-14990): a column with an entry is not scanned again. -/
def loop (pick : Nat × Nat → Nat) (f : Nat → Nat → Nat) (s : Sheet) (sheet snap : Nat) : List Nat → RowCache → Option Nat → RowCache × Option Nat
  | [], rc, acc => (rc, acc)
  | ci :: cs, rc, acc =>
    match rc.get (sheet, ci) snap with
    | some (some b) => loop pick f s sheet snap cs rc (join f acc (pick b))
    | _ =>
      let b := scan s ci
      loop pick f s sheet snap cs (rc.put (sheet, ci) b snap) (match b with | some b => join f acc (pick b) | none => acc)

/-- The columns from `a` to `b`. -/
def span (a b : Nat) : List Nat := (List.range (b + 1 - a)).map fun i => a + i

/-- `arrow_used_row_bounds` (eval.rs 14929-14994), for columns from 1. -/
def arrowRows (s : Sheet) (sheet snap sc ec : Nat) (rc : RowCache) : RowCache × Bounds :=
  if s.ncols = 0 then (rc, none)
  else if sc - 1 > s.ncols - 1 then (rc, none)
  else
    let cols := span (sc - 1) (min (ec - 1) (s.ncols - 1))
    let lo := loop Prod.fst min s sheet snap cols rc none
    match lo.2 with
    | none => (lo.1, none)
    | some a =>
      let hi := loop Prod.snd max s sheet snap cols lo.1 none
      match hi.2 with
      | none => (hi.1, none)
      | some b => (hi.1, some (a + 1, b + 1))

/-- The rows of some cells in columns from 1, numbered from 1. -/
def rowsIn (ps : List (Nat × Nat)) (sc ec : Nat) : Bounds := (bounds ((ps.filter fun p => decide (sc - 1 ≤ p.2 ∧ p.2 ≤ ec - 1)).map Prod.fst)).map fun b => (b.1 + 1, b.2 + 1)

/-- The columns of some cells in rows from 1. -/
def colsIn (ps : List (Nat × Nat)) (sr er : Nat) : Bounds := (bounds ((ps.filter fun p => decide (sr - 1 ≤ p.1 ∧ p.1 ≤ er - 1)).map Prod.snd)).map fun b => (b.1 + 1, b.2 + 1)

/-- eval.rs 15316-15325. -/
def union : Bounds → Bounds → Bounds
  | some (a, b), some (c, d) => some (min a c, max b d)
  | some x, none => some x
  | none, y => y

/-- The parts of the engine. -/
structure Engine where
  book : Book := fun _ => {}
  snapshot : Nat := 1
  rows : RowCache := {}
  rowSpans : SpanCache := {}
  colSpans : SpanCache := {}

/-- `used_rows_for_columns` (eval.rs 23898-23937). -/
def Engine.askRows (e : Engine) (sheet sc ec : Nat) : Engine × Bounds :=
  match e.rowSpans.get (sheet, sc, ec) e.snapshot with
  | some b => (e, b)
  | none =>
    let s := e.book sheet
    let a := arrowRows s sheet e.snapshot sc ec e.rows
    let r := (union a.2 (rowsIn s.formulas sc ec)).or (rowsIn s.vertices sc ec)
    ({ e with rows := a.1, rowSpans := e.rowSpans.put (sheet, sc, ec) r e.snapshot }, r)

/-- `used_cols_for_rows` (eval.rs 23939-23972); the scan of the sheet is not kept by column. -/
def Engine.askCols (e : Engine) (sheet sr er : Nat) : Engine × Bounds :=
  match e.colSpans.get (sheet, sr, er) e.snapshot with
  | some b => (e, b)
  | none =>
    let s := e.book sheet
    let r := (union (colsIn (s.used.filter fun p => decide (p.2 < s.ncols)) sr er) (colsIn s.formulas sr er)).or (colsIn s.vertices sr er)
    ({ e with colSpans := e.colSpans.put (sheet, sr, er) r e.snapshot }, r)

/-- What happens to the engine: an edit of the user, results written by evaluation, and questions. -/
inductive Op
  | edit (b : Book)
  | write (b : Book)
  | rows (sheet sc ec : Nat)
  | cols (sheet sr er : Nat)

def Engine.apply (e : Engine) : Op → Engine
  | .edit b => { e with book := b, snapshot := e.snapshot + 1 }
  | .write b => { e with book := b }
  | .rows sheet sc ec => (e.askRows sheet sc ec).1
  | .cols sheet sr er => (e.askCols sheet sr er).1

def Engine.run (e : Engine) (os : List Op) : Engine := os.foldl Engine.apply e

/-! ## Specification -/

/-- The smallest and the largest number for which a predicate holds, numbered from 1. -/
def Extent (P : Nat → Prop) : Bounds → Prop
  | none => ∀ n, ¬P n
  | some (a, b) => ∃ m M, a = m + 1 ∧ b = M + 1 ∧ P m ∧ P M ∧ ∀ n, P n → m ≤ n ∧ n ≤ M

/-- Some of the cells are in these columns, which count from 1, and in this row. -/
def InCols (ps : List (Nat × Nat)) (sc ec r : Nat) : Prop := ∃ c, sc - 1 ≤ c ∧ c ≤ ec - 1 ∧ (r, c) ∈ ps
def InRows (ps : List (Nat × Nat)) (sr er c : Nat) : Prop := ∃ r, sr - 1 ≤ r ∧ r ≤ er - 1 ∧ (r, c) ∈ ps

/-- All cells that are not empty are in stored columns. -/
def Sheet.Ok (s : Sheet) : Prop := ∀ p ∈ s.used, p.2 < s.ncols

/-- Used rows: those with a cell that is not empty or a formula, otherwise those with a vertex. -/
def RowsRight (s : Sheet) (sc ec : Nat) (b : Bounds) : Prop :=
  ((∃ r, InCols (s.used ++ s.formulas) sc ec r) → Extent (InCols (s.used ++ s.formulas) sc ec) b) ∧ ((¬∃ r, InCols (s.used ++ s.formulas) sc ec r) → Extent (InCols s.vertices sc ec) b)

def ColsRight (s : Sheet) (sr er : Nat) (b : Bounds) : Prop :=
  ((∃ c, InRows (s.used ++ s.formulas) sr er c) → Extent (InRows (s.used ++ s.formulas) sr er) b) ∧ ((¬∃ c, InRows (s.used ++ s.formulas) sr er c) → Extent (InRows s.vertices sr er) b)

/-- The same cells are empty, and formulas and vertices are the same. -/
def SameExtent (b b' : Book) : Prop := ∀ s, (b s).ncols = (b' s).ncols ∧ (b s).used = (b' s).used ∧ (b s).formulas = (b' s).formulas ∧ (b s).vertices = (b' s).vertices

/-- Evaluation makes no cell empty or filled once somebody asked since the last edit. -/
def Calm : Bool → Book → List Op → Prop
  | _, _, [] => True
  | _, _, .edit b :: os => Calm false b os
  | asked, b, .write b' :: os => (asked = true → SameExtent b b') ∧ Calm asked b' os
  | _, b, .rows .. :: os => Calm true b os
  | _, b, .cols .. :: os => Calm true b os

/-- All sheets are fine in all states. -/
def OkBook (b : Book) : Prop := ∀ s, (b s).Ok

end Verif.Snap

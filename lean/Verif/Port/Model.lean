import Mathlib.Data.List.Basic

/-!
# Ports of a workbook: layouts, inputs and batches

Model of `/repo/crates/formualizer-sheetport/src`:
* `layout.rs` 13-22 (`used_row_bound`), 116-193 (`resolve_table_layout`), 240-359
  (`determine_end_row`, `row_blank`, `is_blank`),
* `runtime.rs` 166-181 (`read_inputs_raw`), 206-253 (`write_inputs`, `apply_writes`),
  628-650 (`read_scalar`), 846-890
  (`read_table`), 939-990 (`write_port_value`,
  `write_scalar`), 1229-1305 (`write_table`),
* `batch.rs` 282-374 (`evaluate_current`, `restore_baseline`, `run`).

Simplified: one sheet; letters of columns as numbers; rows of a table as lists in the
order of the columns instead of maps by name; ports of cells and of tables with a layout
only; all ports are inputs; numbers, dates and the like are one kind of value.
`Workbook::action` is taken to apply all writes. The cancellation of a scan, the rebuilding
of a plan and the error that joins two errors are left out. Evaluation is a parameter: a
function of the values of the cells written by hand.
-/

namespace Verif.Port

/-- `LiteralValue` as far as blanks and markers look at it. -/
inductive Val where
  | empty
  | text (s : List Char)
  | other (n : Int)
deriving DecidableEq

/-- layout.rs 7, 23. -/
def maxRows : Nat := 1048576

def maxCols : Nat := 16384

/-- A sheet: the value of each cell, counted from 1, and the number of rows the store
holds. -/
structure Sheet where
  cells : Nat → Nat → Val
  used : Nat

/-- `str::trim`; which characters are white space is a parameter. -/
def trim (ws : Char → Bool) (s : List Char) : List Char := ((s.dropWhile ws).reverse.dropWhile ws).reverse

/-- `is_blank`: layout.rs 353-359. -/
def isBlank (ws : Char → Bool) : Val → Bool
  | .empty => true
  | .text s => (trim ws s).isEmpty
  | .other _ => false

/-- `row_blank`: layout.rs 344-351. -/
def rowBlank (ws : Char → Bool) (sh : Sheet) (row : Nat) (cols : List Nat) : Bool :=
  cols.all fun c => isBlank ws (sh.cells row c)

/-- `LayoutTermination` with the text of the marker. -/
inductive Term where
  | firstBlank
  | marker (m : Option (List Char))
  | sheetEnd
deriving DecidableEq

inductive Err where
  | safety
  | invariant
  | exhausted
  | constraint
  | engine
deriving DecidableEq

/-- Whether a value is the text of the marker: layout.rs 298-305. -/
def isMarker (ws : Char → Bool) (m : Option (List Char)) : Val → Bool
  | .text s => trim ws s = m.getD []
  | _ => false

/-- Whether a row ends the layout: layout.rs 294-308. -/
def stops (ws : Char → Bool) (sh : Sheet) (term : Term) (cols : List Nat) (anchor row : Nat) : Bool :=
  match term with
  | .firstBlank => rowBlank ws sh row cols
  | .marker m => rowBlank ws sh row cols || isMarker ws m (sh.cells row anchor)
  | .sheetEnd => false

/-- The loop over the rows: layout.rs 290-313. -/
def scan (stop : Nat → Bool) : Nat → Nat → Nat → Option Nat
  | 0, _, _ => none
  | n + 1, row, last => if stop row then some last else scan stop n (row + 1) row

/-- `used_row_bound`: layout.rs 15-22. -/
def usedEnd (sh : Sheet) : Nat := min sh.used maxRows

/-- `determine_end_row`: layout.rs 240-327. -/
def endRow (ws : Char → Bool) (sh : Sheet) (start : Nat) (cols : List Nat) (term : Term) : Except Err Nat :=
  if start = 0 ∨ maxRows < start then .error .safety
  else if term = .sheetEnd then .ok (max (usedEnd sh) (start - 1))
  else if term = .marker none then .error .invariant
  else
    match cols with
    | [] => .error .invariant
    | anchor :: _ =>
      match scan (stops ws sh term cols anchor)
          (min (min (usedEnd sh + 1) maxRows - start + 1) (maxRows - start + 1)) start (start - 1) with
      | some last => .ok last
      | none => .error .exhausted

/-- `LayoutDescriptor`. -/
structure Layout where
  header : Nat
  anchor : Nat
  term : Term
deriving DecidableEq

/-- The columns of a table: layout.rs 133-160. -/
def tableCols (anchor : Nat) (hints : List (Option Nat)) : Except Err (List Nat) :=
  let cs := hints.zipIdx.map fun p => p.1.getD (anchor + p.2)
  if (cs.any fun c => maxCols < c) = true then .error .safety else .ok (if cs = [] then [anchor] else cs)

/-- `resolve_table_layout`: layout.rs 116-193: the last row of the data and the columns; the
data start below the header. -/
def tableBounds (ws : Char → Bool) (sh : Sheet) (L : Layout) (hints : List (Option Nat)) : Except Err (Nat × List Nat) :=
  match tableCols L.anchor hints with
  | .error e => .error e
  | .ok cols =>
    if maxRows < L.header + 1 then .error .safety
    else
      match endRow ws sh (L.header + 1) cols L.term with
      | .error e => .error e
      | .ok last => .ok (last, cols)

/-- `read_table`: runtime.rs 846-880. -/
def readTable (ws : Char → Bool) (sh : Sheet) (L : Layout) (hints : List (Option Nat)) : Except Err (List (List Val)) :=
  match tableBounds ws sh L hints with
  | .error e => .error e
  | .ok (last, cols) =>
    .ok ((List.range (last - L.header)).map fun i => (cols.take hints.length).map fun c => sh.cells (L.header + 1 + i) c)

/-- `PreparedWrite`. -/
structure Write where
  row : Nat
  col : Nat
  val : Val

/-- `set_value` of one cell. -/
def put (cells : Nat → Nat → Val) (w : Write) : Nat → Nat → Val :=
  fun r c => if r = w.row ∧ c = w.col then w.val else cells r c

/-- `apply_writes` on the values: runtime.rs 243-253. -/
def apply (cells : Nat → Nat → Val) (l : List Write) : Nat → Nat → Val := l.foldl put cells

/-- The writes of one row. -/
def rowWrites (r : Nat) (cols : List Nat) (vals : List Val) : List Write :=
  (cols.zip vals).map fun p => ⟨r, p.1, p.2⟩

/-- The writes of rows one below the other. -/
def block (start : Nat) (cols : List Nat) : List (List Val) → List Write
  | [] => []
  | row :: rest => rowWrites start cols row ++ block (start + 1) cols rest

/-- Empty values for a row. -/
def blanks (cols : List Nat) : List Val := cols.map fun _ => .empty

/-- A row of the update, with empty values for those missing: runtime.rs 1254-1272. -/
def fitRow (n : Nat) (row : List Val) : List Val := (List.range n).map fun i => row.getD i .empty

/-- `write_table`: runtime.rs 1229-1305. -/
def writeTable (ws : Char → Bool) (sh : Sheet) (L : Layout) (hints : List (Option Nat)) (rows : List (List Val)) :
    Except Err (List Write) :=
  match tableBounds ws sh L hints with
  | .error e => .error e
  | .ok (last, cols) =>
    .ok (block (L.header + 1) cols (rows.map (fitRow hints.length)) ++
      (if rows.length < last - L.header then
        block (L.header + 1 + rows.length) cols (List.replicate (last - L.header - rows.length) (blanks cols)) else []) ++
      (if L.term = .sheetEnd then [] else rowWrites (L.header + 1 + rows.length) cols (blanks cols)))

/-- Ports for one cell and for tables with a layout. -/
inductive Port where
  | cell (r c : Nat)
  | table (L : Layout) (hints : List (Option Nat))

inductive PortVal where
  | one (v : Val)
  | rows (l : List (List Val))

/-- `read_port_value_raw`: runtime.rs 628-650. -/
def readPort (ws : Char → Bool) (sh : Sheet) : Port → Except Err PortVal
  | .cell r c => .ok (.one (sh.cells r c))
  | .table L hints =>
    match readTable ws sh L hints with
    | .error e => .error e
    | .ok l => .ok (.rows l)

/-- `write_port_value`: runtime.rs 939-990. -/
def writePort (ws : Char → Bool) (sh : Sheet) : Port → PortVal → Except Err (List Write)
  | .cell r c, .one v => .ok [⟨r, c, v⟩]
  | .table L hints, .rows l => writeTable ws sh L hints l
  | _, _ => .error .invariant

/-- The writes of an update, prepared on the sheet as it is: runtime.rs 206-240. `ok` is the
validation, left out for the baseline. -/
def prepare (ws : Char → Bool) (ports : List Port) (ok : Port → PortVal → Bool) (sh : Sheet) :
    List (Nat × PortVal) → Except Err (List Write)
  | [] => .ok []
  | (i, v) :: rest =>
    match ports[i]? with
    | none => .error .invariant
    | some p =>
      if ok p v = false then .error .constraint
      else
        match writePort ws sh p v with
        | .error e => .error e
        | .ok l =>
          match prepare ws ports ok sh rest with
          | .error e => .error e
          | .ok l' => .ok (l ++ l')

/-- The sheet after writes; the store grows to hold their rows. -/
def Sheet.write (sh : Sheet) (l : List Write) : Sheet :=
  ⟨apply sh.cells l, l.foldl (fun n w => max n w.row) sh.used⟩

/-- `write_inputs_inner`: runtime.rs 206-241. -/
def writeInputs (ws : Char → Bool) (ports : List Port) (ok : Port → PortVal → Bool) (sh : Sheet)
    (u : List (Nat × PortVal)) : Except Err Sheet :=
  match prepare ws ports ok sh u with
  | .error e => .error e
  | .ok l => .ok (sh.write l)

/-- `read_inputs_raw` from port `i` on: runtime.rs 166-181. -/
def readFrom (ws : Char → Bool) (sh : Sheet) : Nat → List Port → Except Err (List (Nat × PortVal))
  | _, [] => .ok []
  | i, p :: rest =>
    match readPort ws sh p with
    | .error e => .error e
    | .ok v =>
      match readFrom ws sh (i + 1) rest with
      | .error e => .error e
      | .ok l => .ok ((i, v) :: l)

/-- The scenarios one after the other: batch.rs 341-362. The sheet stays as it is when one
fails. -/
def scenarios {Out : Type} (ws : Char → Bool) (ports : List Port) (ok : Port → PortVal → Bool)
    (eval : (Nat → Nat → Val) → Except Err Out) (base : List (Nat × PortVal)) :
    List (List (Nat × PortVal)) → Sheet → Except Err (List Out) × Sheet
  | [], sh => (.ok [], sh)
  | case :: rest, sh =>
    match writeInputs ws ports (fun _ _ => true) sh base with
    | .error e => (.error e, sh)
    | .ok sh1 =>
      match (if case = [] then .ok sh1 else writeInputs ws ports ok sh1 case : Except Err Sheet) with
      | .error e => (.error e, sh1)
      | .ok sh2 =>
        match eval sh2.cells with
        | .error e => (.error e, sh2)
        | .ok out =>
          match scenarios ws ports ok eval base rest sh2 with
          | (.error e, sh3) => (.error e, sh3)
          | (.ok l, sh3) => (.ok (out :: l), sh3)

/-- `BatchExecutor::run`: batch.rs 334-374. -/
def run {Out : Type} (ws : Char → Bool) (ports : List Port) (ok : Port → PortVal → Bool)
    (eval : (Nat → Nat → Val) → Except Err Out) (base : List (Nat × PortVal))
    (cases : List (List (Nat × PortVal))) (sh : Sheet) : Except Err (List Out) × Sheet :=
  match scenarios ws ports ok eval base cases sh with
  | (primary, sh1) =>
    match writeInputs ws ports (fun _ _ => true) sh1 base with
    | .error e => (match primary with | .error p => .error p | .ok _ => .error e, sh1)
    | .ok sh2 =>
      match eval sh2.cells with
      | .error e => (match primary with | .error p => .error p | .ok _ => .error e, sh2)
      | .ok _ => (primary, sh2)

end Verif.Port

/-!
# The report of changed cells

Model of `/repo/crates/formualizer-eval/src/engine/eval_delta.rs` 118-182 and 184-345 (the collector of changed
cells and its reports), and of the places of `/repo/crates/formualizer-eval/src/engine/eval.rs` that record into it
(`record_computed_write_buffer_delta` 16307-16357, `plan_array_effects` and the effects 25570-25910,
`commit_spill_and_mirror` 25357-25424).

Simplified: rows, columns and sheets are natural numbers (`u32`, `u32`, `u16` in the code; the one sum that can
overflow, `end + 1`, saturates there and is compared with a number that fits, so that it decides the same).
Reserving memory is taken to succeed.
-/
namespace Verif.Delta

/-- A changed cell: sheet, row, column (all from 0). -/
structure Cell where
  sheet : Nat
  row : Nat
  col : Nat
deriving DecidableEq, Repr

/-- `(SheetId, DeltaRect)` (eval_delta.rs 184-190). -/
structure Rect where
  sheet : Nat
  sr : Nat
  sc : Nat
  er : Nat
  ec : Nat
deriving DecidableEq, Repr

/-- The order of tuples, read from the left. -/
def lexLe : List Nat → List Nat → Bool
  | [], _ => true
  | _ :: _, [] => false
  | a :: as, b :: bs => a < b || (a == b && lexLe as bs)

/-- Insertion in the order of a key. -/
def ins {α : Type} (key : α → List Nat) (x : α) : List α → List α
  | [] => [x]
  | y :: ys => if lexLe (key x) (key y) then x :: y :: ys else y :: ins key x ys

/-- `sort_unstable_by_key`.  All the keys below hold every field of what is sorted, so that equal keys are equal
records and any sorting gives the same list. -/
def sortBy {α : Type} (key : α → List Nat) (l : List α) : List α := l.foldr (ins key) []

/-- The key of the horizontal sweep (eval_delta.rs 252-260). -/
def keyH (r : Rect) : List Nat := [r.sheet, r.sr, r.er, r.sc, r.ec]

/-- The key of the vertical sweep (eval_delta.rs 274-282). -/
def keyV (r : Rect) : List Nat := [r.sheet, r.sc, r.ec, r.sr, r.er]

/-- The key of the report (eval_delta.rs 296-304). -/
def keyR (r : Rect) : List Nat := [r.sheet, r.sr, r.sc, r.er, r.ec]

/-- Does the record continue the previous one to the right?  (eval_delta.rs 263-267) -/
def joinsH (p r : Rect) : Bool := p.sheet == r.sheet && p.sr == r.sr && p.er == r.er && r.sc ≤ p.ec + 1

/-- The previous record grown to the right (eval_delta.rs 269). -/
def growH (p r : Rect) : Rect := { p with ec := max p.ec r.ec }

/-- Does the record continue the previous one downwards?  (eval_delta.rs 285-289) -/
def joinsV (p r : Rect) : Bool := p.sheet == r.sheet && p.sc == r.sc && p.ec == r.ec && r.sr ≤ p.er + 1

/-- The previous record grown downwards (eval_delta.rs 291). -/
def growV (p r : Rect) : Rect := { p with er := max p.er r.er }

/-- One sweep: `p` is the last record of the output so far (eval_delta.rs 261-273, 283-295). -/
def sweepFrom (joins : Rect → Rect → Bool) (grow : Rect → Rect → Rect) (p : Rect) : List Rect → List Rect
  | [] => [p]
  | r :: rest => if joins p r then sweepFrom joins grow (grow p r) rest else p :: sweepFrom joins grow r rest

/-- A sweep over all the records. -/
def sweep (joins : Rect → Rect → Bool) (grow : Rect → Rect → Rect) : List Rect → List Rect
  | [] => []
  | r :: rest => sweepFrom joins grow r rest

/-- `record_region` (eval_delta.rs 222-243): `off` is `DeltaMode::Off`. -/
def recordRegion (off : Bool) (l : List Rect) (r : Rect) : List Rect :=
  if off || r.sr > r.er || r.sc > r.ec then l else l ++ [r]

/-- `record_cell` (eval_delta.rs 212-214). -/
def recordCell (off : Bool) (l : List Rect) (c : Cell) : List Rect :=
  recordRegion off l ⟨c.sheet, c.row, c.col, c.row, c.col⟩

/-- The rectangles of `finish_target` (eval_delta.rs 246-304), before they are named `Run` or `Region`. -/
def finishTarget (off : Bool) (l : List Rect) : List Rect :=
  if off then []
  else sortBy keyR (sweep joinsV growV (sortBy keyV (sweep joinsH growH (sortBy keyH l))))

/-- Is the record a `Run`?  (eval_delta.rs 308) -/
def isRun (r : Rect) : Bool := r.sr == r.er || r.sc == r.ec

/-- `usize::MAX`. -/
def maxU : Nat := 2 ^ 64 - 1

/-- The cells counted for one record (eval_delta.rs 124-126). -/
def area (r : Rect) : Nat := min maxU ((r.er - r.sr + 1) * (r.ec - r.sc + 1))

/-- The count of cells against the limit, record by record (eval_delta.rs 122-146): `false` is the error. -/
def within (limit : Option Nat) (observed : Nat) : List Rect → Bool
  | [] => true
  | r :: rest =>
    let o := min maxU (observed + area r)
    match limit with
    | some k => if o > k then false else within limit o rest
    | none => within limit o rest

/-- The cells of a record, row by row (eval_delta.rs 163-166). -/
def cellsOf (r : Rect) : List Cell :=
  (List.range' r.sr (r.er - r.sr + 1)).flatMap fun row =>
    (List.range' r.sc (r.ec - r.sc + 1)).map fun col => ⟨r.sheet, row, col⟩

/-- `PackedSheetCell::try_new` (address.rs 85-93), as a number; `none` beyond the grid. -/
def pack (c : Cell) : Option Nat :=
  if c.row > 1048575 ∨ c.col > 16383 then none else some (c.row + c.col * 2 ^ 20 + c.sheet * 2 ^ 34)

/-- All the cells packed, or the error (eval_delta.rs 163-177). -/
def packAll : List Cell → Option (List Nat)
  | [] => some []
  | c :: cs => match pack c, packAll cs with
    | some n, some ns => some (n :: ns)
    | _, _ => none

/-- `Vec::dedup`: of equal neighbours the first stays. -/
def dedup : List Nat → List Nat
  | [] => []
  | a :: l => match dedup l with
    | [] => [a]
    | b :: r => if a = b then b :: r else a :: b :: r

/-- The outcome of the expansion. -/
inductive Report where
  | cells (l : List Nat)
  | tooMany
  | beyond
deriving DecidableEq, Repr

/-- `compatibility_cells_with_policy` (eval_delta.rs 118-182): `limit = none` is `Unlimited`. -/
def expand (limit : Option Nat) (rs : List Rect) : Report :=
  if within limit 0 rs then
    match packAll (rs.flatMap cellsOf) with
    | none => .beyond
    | some ns => .cells (dedup (sortBy (fun n => [n]) ns))
  else .tooMany

/-! ## What is recorded -/

/-- The values that matter for the comparison (`LiteralValue`, which derives `PartialEq`; an error carries its
message, and `message` is part of what is compared, error.rs 247-253).  Temporal values are left out. -/
inductive V where
  | empty
  | int (i : Int)
  | num (q : Rat)
  | bool (b : Bool)
  | text (s : List Char)
  | err (kind : Nat) (message : List Char)
deriving DecidableEq, Repr

/-- What storing and reading back makes of a value (`OverlayValue::from_literal_value` and `to_literal_for`,
arrow_store/mod.rs 953-975, 1053-1068): numbers are floats (`flt` is the conversion of integers), errors lose their
message. -/
def stored (flt : Int → Rat) : V → V
  | .int i => .num (flt i)
  | .err k _ => .err k []
  | v => v

/-- The values of the cells, as they are read (`read_cell_value`, eval.rs 17263-17273). -/
abbrev Sheet := Cell → V

/-- A cell takes a value. -/
def put (flt : Int → Rat) (s : Sheet) (c : Cell) (v : V) : Sheet := fun d => if d = c then stored flt v else s d

/-- What evaluation does to cells while it records: a scalar result (`apply_write_cell`), a spill that is cleared
(`apply_spill_clear`), a spill that is committed (`commit_spill_and_mirror`: the cells of the spill before it, and
the cells written with their values), and a buffer of computed writes that is flushed. -/
inductive Act where
  | write (c : Cell) (v : V)
  | clear (cells : List Cell)
  | commit (prev : List Cell) (targets : List (Cell × V))
  | flush (writes : List (Cell × V))
deriving Repr

/-- Many cells take values, the last one stays. -/
def putAll (flt : Int → Rat) (s : Sheet) (ws : List (Cell × V)) : Sheet := ws.foldl (fun s w => put flt s w.1 w.2) s

/-- The last value written to a cell (the `BTreeMap` of eval.rs 16315-16348). -/
def lastOf (ws : List (Cell × V)) (c : Cell) : Option V := (ws.reverse.find? fun w => w.1 = c).map (·.2)

/-- The cells recorded by one act.
`write`: eval.rs 25797-25812; `clear`: 25854-25868; `commit`: 25372-25418 (the cells of the earlier spill that are
not written again, then the cells written); `flush`: 16349-16356 (each cell once, with its last value, as it will be
read). -/
def recorded (flt : Int → Rat) (s : Sheet) : Act → List Cell
  | .write c v => if s c ≠ v then [c] else []
  | .clear cells => cells.filter fun c => s c ≠ .empty
  | .commit prev targets =>
    (prev.filter fun c => !(targets.map (·.1)).contains c && s c ≠ .empty) ++
      (targets.filter fun w => s w.1 ≠ w.2).map (·.1)
  | .flush ws => (ws.map (·.1)).filter fun c => match lastOf ws c with
    | some v => s c ≠ stored flt v
    | none => false

/-- What one act does to the cells: a cleared spill is empty; a commit empties the cells of the earlier spill
that it does not write, and writes its own (eval.rs 25456-25488). -/
def act (flt : Int → Rat) (s : Sheet) : Act → Sheet
  | .write c v => put flt s c v
  | .clear cells => putAll flt s (cells.map fun c => (c, .empty))
  | .commit prev targets =>
    putAll flt (putAll flt s ((prev.filter fun c => !(targets.map (·.1)).contains c).map fun c => (c, .empty))) targets
  | .flush ws => putAll flt s ws

/-- A run of acts: the cells at the end and all that was recorded. -/
def run (flt : Int → Rat) : Sheet → List Act → Sheet × List Cell
  | s, [] => (s, [])
  | s, a :: as => let r := run flt (act flt s a) as; (r.1, recorded flt s a ++ r.2)

/-- The acts for a formula that gives an array (`plan_array_effects`, eval.rs 25692-25718): the earlier spill is
cleared, the new one committed, the anchor written. -/
def arrayActs (prev : List Cell) (anchor : Cell) (top : V) (targets : List (Cell × V)) : List Act :=
  (if prev = [] then [] else [.clear prev]) ++ [.commit [] targets, .write anchor top]

end Verif.Delta

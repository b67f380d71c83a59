/-!
# Hidden rows

Model of `/repo/crates/formualizer-eval/src/engine/row_visibility.rs` and of its use in `/repo/crates/formualizer-eval/src/engine/eval.rs` 1395-1484, 4007-4009, 12004-12140, 12252-12323.  Rows are natural
numbers from 0, `u32` in the code; the places where the code saturates do so here.
-/

namespace Verif.Rows

/-- row_visibility.rs 15-18, `RowBitSet`: words of 64 bits. -/
abbrev Words := List (BitVec 64)

/-- The largest `u32`. -/
def maxU : Nat := 2 ^ 32 - 1

/-- row_visibility.rs 21-23. -/
def isEmpty (ws : Words) : Bool := ws.all fun w => w == 0#64

/-- row_visibility.rs 25-32. -/
def get (ws : Words) (r : Nat) : Bool :=
  match ws[r / 64]? with
  | some w => (w &&& (1#64 <<< (r % 64))) != 0#64
  | none => false

/-- row_visibility.rs 155-159, `trim_trailing_zeros`. -/
def trim : Words → Words
  | [] => []
  | w :: ws =>
    let t := trim ws
    if t = [] ∧ w = 0#64 then [] else w :: t

/-- row_visibility.rs 34-60: the new words and whether they changed. -/
def set (ws : Words) (r : Nat) (hidden : Bool) : Words × Bool :=
  if r / 64 ≥ ws.length ∧ hidden = false then (ws, false)
  else
    let grown := ws ++ List.replicate (r / 64 + 1 - ws.length) 0#64
    let w := grown.getD (r / 64) 0#64
    let mask := 1#64 <<< (r % 64)
    if ((w &&& mask) != 0#64) = hidden then (grown, false)
    else if hidden = true then (grown.set (r / 64) (w ||| mask), true)
    else (trim (grown.set (r / 64) (w &&& ~~~mask)), true)

/-- The rows from `a` to `b`. -/
def rowsFromTo (a b : Nat) : List Nat := (List.range (b + 1 - a)).map fun i => a + i

/-- row_visibility.rs 67-70: one row after the other. -/
def setAll (hidden : Bool) : List Nat → Words → Words × Bool
  | [], ws => (ws, false)
  | r :: rs, ws =>
    let s := set ws r hidden
    let rest := setAll hidden rs s.1
    (rest.1, s.2 || rest.2)

/-- row_visibility.rs 62-72. -/
def setRange (ws : Words) (a b : Nat) (hidden : Bool) : Words × Bool := if a > b then (ws, false) else setAll hidden (rowsFromTo a b) ws

/-- `u64::trailing_zeros`. -/
def ctz (w : BitVec 64) : Nat := ((List.range 64).find? fun k => w.getLsbD k).getD 64

/-- row_visibility.rs 137-143: the bits of a word, which is at most 64 times changed. -/
def bits : Nat → BitVec 64 → List Nat
  | 0, _ => []
  | f + 1, w => if w = 0#64 then [] else ctz w :: bits f (w &&& (w - 1#64))

/-- row_visibility.rs 134-146, `collect_set_rows`, from the word with number `i`. -/
def collectFrom : Nat → Words → List Nat
  | _, [] => []
  | i, w :: ws => (bits 64 w).map (fun k => i * 64 + k) ++ collectFrom (i + 1) ws

def collect (ws : Words) : List Nat := collectFrom 0 ws

/-- row_visibility.rs 148-153, `rebuild_from_set_rows`. -/
def rebuild (rows : List Nat) : Words := (setAll true rows []).1

/-- `u32::saturating_add`. -/
def satAdd (a b : Nat) : Nat := min (a + b) maxU

/-- row_visibility.rs 74-100. -/
def insertRows (ws : Words) (before count : Nat) : Words × Bool :=
  if count = 0 then (ws, false)
  else
    let old := collect ws
    if old = [] then (ws, false)
    else if old.any (fun r => decide (before ≤ r)) = true then (rebuild (old.map fun r => if before ≤ r then satAdd r count else r), true)
    else (ws, false)

/-- row_visibility.rs 102-132. -/
def deleteRows (ws : Words) (start count : Nat) : Words × Bool :=
  if count = 0 then (ws, false)
  else
    let old := collect ws
    let last := satAdd start (count - 1)
    if old = [] then (ws, false)
    else if old.any (fun r => decide (start ≤ r)) = true then
      (rebuild (old.filterMap fun r => if r < start then some r else if r ≤ last then none else some (r - count)), true)
    else (ws, false)

/-- row_visibility.rs 1-5. -/
inductive Source | manual | filter
  deriving DecidableEq, Repr

/-- row_visibility.rs 162-167, `RowVisibilityState`. -/
structure State where
  manual : Words := []
  filter : Words := []
  version : Nat := 0
  deriving DecidableEq, Repr

/-- row_visibility.rs 174-176. -/
def State.isEmpty (s : State) : Bool := Rows.isEmpty s.manual && Rows.isEmpty s.filter

/-- row_visibility.rs 209-215, for one source. -/
def State.hidden (s : State) (r : Nat) : Source → Bool
  | .manual => get s.manual r
  | .filter => get s.filter r

/-- `u64::saturating_add(1)` if something changed. -/
def bump (v : Nat) (changed : Bool) : Nat := if changed = true then min (v + 1) (2 ^ 64 - 1) else v

/-- row_visibility.rs 178-187. -/
def State.setRow (s : State) (r : Nat) (h : Bool) : Source → State × Bool
  | .manual => let w := set s.manual r h; ({ s with manual := w.1, version := bump s.version w.2 }, w.2)
  | .filter => let w := set s.filter r h; ({ s with filter := w.1, version := bump s.version w.2 }, w.2)

/-- row_visibility.rs 189-207. -/
def State.setRows (s : State) (a b : Nat) (h : Bool) : Source → State × Bool
  | .manual => let w := setRange s.manual a b h; ({ s with manual := w.1, version := bump s.version w.2 }, w.2)
  | .filter => let w := setRange s.filter a b h; ({ s with filter := w.1, version := bump s.version w.2 }, w.2)

/-- row_visibility.rs 231-238. -/
def State.insert (s : State) (before count : Nat) : State × Bool :=
  let m := insertRows s.manual before count
  let f := insertRows s.filter before count
  ({ manual := m.1, filter := f.1, version := bump s.version (m.2 || f.2) }, m.2 || f.2)

/-- row_visibility.rs 240-247. -/
def State.delete (s : State) (start count : Nat) : State × Bool :=
  let m := deleteRows s.manual start count
  let f := deleteRows s.filter start count
  ({ manual := m.1, filter := f.1, version := bump s.version (m.2 || f.2) }, m.2 || f.2)

/-- row_visibility.rs 7-13. -/
inductive Mode | all | noManual | noFilter | neither
  deriving DecidableEq, Repr

/-- eval.rs 12271-12277, `VisibilityMaskCacheKey`. -/
structure Key where
  sheet : Nat
  start : Nat
  last : Nat
  mode : Mode
  version : Nat
  deriving DecidableEq, Repr

/-- The parts of the engine: eval.rs 971-975. -/
structure Engine where
  states : Nat → Option State := fun _ => none
  cache : List (Key × List Bool) := []

/-- Replace one entry of the table. -/
def Engine.put (e : Engine) (sheet : Nat) (o : Option State) : Nat → Option State := fun s => if s = sheet then o else e.states s

/-- eval.rs 12010-12065: the entry is made if it is missing and taken away if nothing is hidden; a change empties the cache. -/
def Engine.update (e : Engine) (sheet : Nat) (f : State → State × Bool) : Engine :=
  let r := f ((e.states sheet).getD {})
  { states := e.put sheet (if r.1.isEmpty = true then none else some r.1), cache := if r.2 = true then [] else e.cache }

/-- eval.rs 12067-12103: only an entry that is there. -/
def Engine.shift (e : Engine) (sheet : Nat) (count : Nat) (f : State → State × Bool) : Engine :=
  if count = 0 then e
  else
    match e.states sheet with
    | none => e
    | some s => { states := e.put sheet (if (f s).1.isEmpty = true then none else some (f s).1), cache := if (f s).2 = true then [] else e.cache }

def Engine.setRow (e : Engine) (sheet r : Nat) (h : Bool) (src : Source) : Engine := e.update sheet fun s => s.setRow r h src
def Engine.setRows (e : Engine) (sheet a b : Nat) (h : Bool) (src : Source) : Engine := e.update sheet fun s => s.setRows a b h src
def Engine.insert (e : Engine) (sheet before count : Nat) : Engine := e.shift sheet count fun s => s.insert before count
def Engine.delete (e : Engine) (sheet start count : Nat) : Engine := e.shift sheet count fun s => s.delete start count

/-- eval.rs 4007-4009. -/
def Engine.removeSheet (e : Engine) (sheet : Nat) : Engine :=
  match e.states sheet with
  | none => e
  | some _ => { states := e.put sheet none, cache := [] }

/-- eval.rs 12225-12240, `is_row_hidden` for one source. -/
def Engine.hidden (e : Engine) (sheet : Nat) (src : Source) (r : Nat) : Bool :=
  match e.states sheet with
  | some s => s.hidden r src
  | none => false

/-- eval.rs 12242-12250. -/
def Engine.version (e : Engine) (sheet : Nat) : Nat := ((e.states sheet).map State.version).getD 0

/-- eval.rs 12299-12306. -/
def includes (mode : Mode) (manual filter : Bool) : Bool :=
  match mode with
  | .all => true
  | .noManual => !manual
  | .noFilter => !filter
  | .neither => !(manual || filter)

/-- eval.rs 12289-12308: a mask from the state. -/
def Engine.fresh (e : Engine) (k : Key) : List Bool := (rowsFromTo k.start k.last).map fun r => includes k.mode (e.hidden k.sheet .manual r) (e.hidden k.sheet .filter r)

/-- eval.rs 12252-12323, `build_row_visibility_mask_for_view`, for the rows of a view and the number of rows of its sheet, with the largest number of masks kept. -/
def Engine.mask (e : Engine) (limit : Nat) (sheet start last rows : Nat) (mode : Mode) : Engine × List Bool :=
  if rows = 0 ∨ start ≥ rows then (e, [])
  else
    let k : Key := { sheet := sheet, start := start, last := min last (rows - 1), mode := mode, version := e.version sheet }
    match e.cache.lookup k with
    | some m => (e, m)
    | none => ({ e with cache := (k, e.fresh k) :: (if e.cache.length ≥ limit then [] else e.cache) }, e.fresh k)

/-- aggregate.rs 1392-1402, `row_is_visible`. -/
def visible (mask : List Bool) (i : Nat) : Bool := (mask[i]?).getD true

/-! ### Actions that are logged -/

/-- `ChangeEvent::SetRowVisibility`. -/
structure Event where
  sheet : Nat
  row : Nat
  src : Source
  old : Bool
  new : Bool
  deriving DecidableEq, Repr

/-- What an action does: eval.rs 1395-1484 and 1487-1546, of which only the hidden rows are modelled. -/
inductive Step
  | setRow (sheet r : Nat) (h : Bool) (src : Source)
  | setRows (sheet a b : Nat) (h : Bool) (src : Source)
  | insert (sheet before count : Nat)
  deriving DecidableEq, Repr

/-- eval.rs 1402-1433: a row is set and recorded if it is not as wanted. -/
def logRow (e : Engine) (sheet r : Nat) (h : Bool) (src : Source) : Engine × List Event :=
  if e.hidden sheet src r = h then (e, []) else (e.setRow sheet r h src, [⟨sheet, r, src, e.hidden sheet src r, h⟩])

/-- eval.rs 1459-1482. -/
def logRows (sheet : Nat) (h : Bool) (src : Source) : List Nat → Engine → Engine × List Event
  | [], e => (e, [])
  | r :: rs, e =>
    let s := logRow e sheet r h src
    let rest := logRows sheet h src rs s.1
    (rest.1, s.2 ++ rest.2)

/-- One step of an action.  Insertions of rows record nothing about hidden rows. -/
def step (e : Engine) : Step → Engine × List Event
  | .setRow sheet r h src => logRow e sheet r h src
  | .setRows sheet a b h src => logRows sheet h src (rowsFromTo a b) e
  | .insert sheet before count => (e.insert sheet before count, [])

def steps : List Step → Engine → Engine × List Event
  | [], e => (e, [])
  | s :: ss, e =>
    let r := step e s
    let rest := steps ss r.1
    (rest.1, r.2 ++ rest.2)

/-- eval.rs 12105-12116, 12131-12135. -/
def undo (evs : List Event) (e : Engine) : Engine := evs.reverse.foldl (fun e v => e.setRow v.sheet v.row v.old v.src) e

/-- eval.rs 12118-12129, 12137-12141. -/
def redo (evs : List Event) (e : Engine) : Engine := evs.foldl (fun e v => e.setRow v.sheet v.row v.new v.src) e

end Verif.Rows

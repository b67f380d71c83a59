import Mathlib.Data.List.Basic
import Mathlib.Data.List.GetD
import Verif.Store.Overlay

/-!
# A sheet of chunked columns

Models `ArrowSheet` (`/repo/crates/formualizer-eval/src/arrow_store/mod.rs` 126-147, 230-375,
3504-3578, 3689-4848) and the engine functions that write single cells to it
(`/repo/crates/formualizer-eval/src/engine/eval.rs` 15329-15425, 16079-16130).

* A sheet is a list of columns.  A column keeps its rows in chunks: the first ones in a vector, others
  in a hash map from chunk number to chunk.  A chunk that is missing reads as empty cells.
* `chunk_starts` says at which row each chunk begins; it is shared by all columns.
* Each chunk has a base (typed arrays), the user's overlay and the computed overlay.
* `usize` and `u32` do not overflow (`nrows` is a `u32` in the code).
* An index out of range panics in the code.  Where `chunk_starts` or the tags of a chunk are indexed
  without a check, the model returns `none`.  `Array::slice` panics as well when the slice does not fit;
  the model cuts it short.  `slices_fit` (Ingest.lean) states that under the invariant it always fits.
* Formats and cached arrays are left out.
-/

namespace Verif.Store

variable {F G : Type}

/-- The `LiteralValue`s a stored cell can read as. -/
inductive Lit (F : Type) where
  | empty
  | number (x : F)
  | boolean (b : Bool)
  | text (s : String)
  | error (code : Nat)
  | pending
  deriving DecidableEq, Repr

/-- `to_literal_for` (mod.rs 1053-1068): dates and durations read as their serial number. -/
def Value.lit : Value F → Lit F
  | .empty => .empty
  | .number x => .number x
  | .dateTime x => .number x
  | .duration x => .number x
  | .boolean b => .boolean b
  | .text s => .text s
  | .error c => .error c
  | .pending => .pending

/-- `ColumnChunk` (mod.rs 126-147). -/
structure Chunk (F : Type) where
  base : Lanes F
  user : Overlay F
  comp : Overlay F

/-- `len` (mod.rs 150-153): the length of the tags. -/
def Chunk.len (ch : Chunk F) : Nat := ch.base.tags.length

/-- `make_empty_chunk` (mod.rs 3892-3915). -/
def Chunk.empty (n : Nat) : Chunk F :=
  ⟨⟨List.replicate n Tag.empty.code, none, none, none, none⟩, Overlay.new, Overlay.new⟩

/-- A lane copied up to the old length and padded with nulls (mod.rs 247-309). -/
def growLane {α : Type} (old new : Nat) (lane : List (Option α)) : List (Option α) :=
  lane.take old ++ List.replicate (new - old) none

/-- `grow_len_to` (mod.rs 234-320). -/
def Chunk.grow (ch : Chunk F) (new : Nat) : Chunk F :=
  if new ≤ ch.len then ch
  else
    { ch with
      base := {
        tags := ch.base.tags ++ List.replicate (new - ch.len) Tag.empty.code
        numbers := ch.base.numbers.map (growLane ch.len new)
        booleans := ch.base.booleans.map (growLane ch.len new)
        text := ch.base.text.map (growLane ch.len new)
        errors := ch.base.errors.map (growLane ch.len new) } }

/-- A lane sliced, and kept only if something in the slice is not null (mod.rs 3926-3955). -/
def sliceLane {α : Type} (off len : Nat) (lane : List (Option α)) : Option (List (Option α)) :=
  keep ((lane.drop off).take len)

/-- `slice_chunk` (mod.rs 3917-3986). -/
def Chunk.slice (E : Env F) (ch : Chunk F) (off len : Nat) : Chunk F where
  base := {
    tags := (ch.base.tags.drop off).take len
    numbers := ch.base.numbers.bind (sliceLane off len)
    booleans := ch.base.booleans.bind (sliceLane off len)
    text := ch.base.text.bind (sliceLane off len)
    errors := ch.base.errors.bind (sliceLane off len) }
  user := ch.user.slice E off len
  comp := ch.comp.slice E off len

/-- The row of the base copied into the builders (mod.rs 4051-4119, 4247-4315). -/
def baseRow (l : Lanes F) (i : Nat) : Row F :=
  match Tag.ofCode (l.tags.getD i 0) with
  | .empty => ⟨Tag.empty.code, none, none, none, none⟩
  | .number => ⟨Tag.number.code, laneAt l.numbers i, none, none, none⟩
  | .dateTime => ⟨Tag.dateTime.code, laneAt l.numbers i, none, none, none⟩
  | .duration => ⟨Tag.duration.code, laneAt l.numbers i, none, none, none⟩
  | .boolean => ⟨Tag.boolean.code, none, laneAt l.booleans i, none, none⟩
  | .text => ⟨Tag.text.code, none, none, laneAt l.text i, none⟩
  | .error => ⟨Tag.error.code, none, none, none, laneAt l.errors i⟩
  | .pending => ⟨Tag.pending.code, none, none, none, none⟩

/-- One row of the rebuilt base: the overlay's value if it has one, else the base's row. -/
def foldRow (o : Overlay F) (l : Lanes F) (i : Nat) : Row F :=
  match o.get i with
  | some v => Row.ofValue v
  | none => baseRow l i

/-- The rebuilt base (mod.rs 4034-4170, 4230-4366). -/
def foldInto (o : Overlay F) (l : Lanes F) : Lanes F :=
  .ofRows ((List.range l.tags.length).map (foldRow o l))

/-- `maybe_compact_chunk` (mod.rs 3990-4190) on one chunk. -/
def Chunk.compactUser (absThreshold fracDen : Nat) (ch : Chunk F) : Chunk F :=
  if ch.len = 0 then ch
  else if ch.user.len > ch.len / max fracDen 1 ∨ ch.user.len > absThreshold then
    ⟨foldInto ch.user ch.base, ch.user.clear.1, ch.comp⟩
  else ch

/-- `Overlay::is_empty` (mod.rs 2228-2230). -/
def Overlay.isEmpty (o : Overlay F) : Bool := o.points.isEmpty && o.fragments.isEmpty

/-- `compact_computed_overlay_chunk` (mod.rs 4198-4383) on one chunk. -/
def Chunk.compactComputed (ch : Chunk F) : Chunk F :=
  if ch.len = 0 ∨ ch.comp.isEmpty = true then ch
  else ⟨foldInto ch.comp ch.base, ch.user, ch.comp.clear.1⟩

/-- `ArrowColumn` (mod.rs 323-328).  The hash map is the list of its entries in any order. -/
structure Column (F : Type) where
  dense : List (Chunk F)
  sparse : List (Nat × Chunk F)

/-- `ArrowColumn::chunk` (mod.rs 332-338). -/
def Column.chunk (c : Column F) (idx : Nat) : Option (Chunk F) :=
  if idx < c.dense.length then c.dense[idx]? else assoc c.sparse idx

/-- `ArrowSheet` (mod.rs 358-375). -/
structure Sheet (F : Type) where
  cols : List (Column F)
  nrows : Nat
  starts : List Nat
  chunkRows : Nat

/-- `required_len_for` (mod.rs 3814-3818), and the length computed in `ensure_column_chunk_mut`
(mod.rs 3847-3853). -/
def Sheet.widthAt (s : Sheet F) (j : Nat) : Option Nat :=
  (s.starts[j]?).map fun a => (s.starts[j + 1]?).getD s.nrows - a

/-- The loop that appends chunk starts (mod.rs 3801-3804); `fuel` bounds the number of rounds. -/
def startsFrom (size target : Nat) : Nat → Nat → List Nat
  | 0, _ => []
  | fuel + 1, next => if next < target then next :: startsFrom size target fuel (next + size) else []

/-- The chunk map of `ensure_row_capacity` (mod.rs 3789-3804). -/
def grownStarts (starts : List Nat) (size target : Nat) : List Nat :=
  let starts := if starts = [] then [0] else starts
  starts ++ startsFrom size target target (starts.getLastD 0 + size)

/-- Grow a chunk to its length, if the chunk map has one for it (mod.rs 3821-3837). -/
def Sheet.growChunk (s : Sheet F) (j : Nat) (ch : Chunk F) : Chunk F :=
  match s.widthAt j with
  | some n => ch.grow n
  | none => ch

/-- `ensure_row_capacity` (mod.rs 3779-3838). -/
def Sheet.ensureRows (s : Sheet F) (target : Nat) : Sheet F :=
  if target ≤ s.nrows then s
  else
    let s1 : Sheet F := { s with
      starts := grownStarts s.starts (max s.chunkRows 1) target
      nrows := target }
    { s1 with
      cols := s1.cols.map fun c =>
        ⟨c.dense.mapIdx s1.growChunk, c.sparse.map fun kv => (kv.1, s1.growChunk kv.1 kv.2)⟩ }

/-- `new_sparse` (mod.rs 3510-3546). -/
def Sheet.newSparse (ncols nrows chunkRows : Nat) : Sheet F :=
  Sheet.ensureRows ⟨List.replicate ncols ⟨[], []⟩, 0, [], max chunkRows 1⟩ nrows

/-- `chunk_of_row` (mod.rs 3867-3878) for a row inside the sheet: the last chunk starting at or before
it.  `none` is the panic of `self.chunk_starts[ch_idx]`. -/
def Sheet.chunkOfRow (s : Sheet F) (r : Nat) : Option (Nat × Nat) :=
  let idx := (s.starts.takeWhile (· ≤ r)).length - 1
  (s.starts[idx]?).map fun a => (idx, r - a)

/-- What a cell of a chunk reads as (mod.rs 3705-3770); `none` is the panic of `type_tag.value`. -/
def Chunk.read (ch : Chunk F) (o : Nat) : Option (Lit F) :=
  match (ch.user.get o).or (ch.comp.get o) with
  | some v => some v.lit
  | none => if o < ch.len then some (((ch.base.value o).getD .empty).lit) else none

/-- `get_cell_value` (mod.rs 3689-3770); `none` is a panic. -/
def Sheet.read (s : Sheet F) (r c : Nat) : Option (Lit F) :=
  if s.nrows ≤ r then some .empty
  else
    match s.cols[c]? with
    | none => some .empty
    | some col =>
      match s.chunkOfRow r with
      | none => none
      | some (j, o) =>
        match col.chunk j with
        | none => some .empty
        | some ch => ch.read o

/-- Change the entry of a hash map for a key, inserting `new` first if there is none
(`entry(k).or_insert_with(..)`). -/
def upsert {α : Type} (k : Nat) (new : α) (f : α → α) : List (Nat × α) → List (Nat × α)
  | [] => [(k, f new)]
  | (k', a) :: r => if k' = k then (k', f a) :: r else (k', a) :: upsert k new f r

/-- `ensure_column_chunk_mut` (mod.rs 3842-3864) and a change to the chunk it returns; nothing happens
when it returns `None`. -/
def Sheet.atChunk (s : Sheet F) (c j : Nat) (f : Chunk F → Chunk F) : Sheet F :=
  match s.widthAt j with
  | none => s
  | some n =>
    { s with
      cols := s.cols.modify c fun col =>
        if j < col.dense.length then { col with dense := col.dense.modify j f }
        else { col with sparse := upsert j (Chunk.empty n) f col.sparse } }

/-- A change to a chunk that exists (`chunk_mut`, mod.rs 340-347). -/
def Sheet.atExisting (s : Sheet F) (c j : Nat) (f : Chunk F → Chunk F) : Sheet F :=
  { s with
    cols := s.cols.modify c fun col =>
      if j < col.dense.length then { col with dense := col.dense.modify j f }
      else { col with sparse := col.sparse.map fun kv => if kv.1 = j then (kv.1, f kv.2) else kv } }

/-- `dense_aligned` (mod.rs 4416-4420, 4603-4607, 4787-4791). -/
def Sheet.aligned (s : Sheet F) : Bool :=
  s.cols.all fun c => c.sparse.isEmpty && decide (c.dense.length = s.starts.length)

/-- The chunk lengths of an inserted column (mod.rs 4793-4811). -/
def Sheet.newColumnLens (s : Sheet F) : List Nat :=
  match s.cols with
  | [] => if s.nrows > 0 then [s.nrows] else []
  | c :: _ => if s.aligned then c.dense.map Chunk.len else []

/-- `insert_columns` (mod.rs 4771-4832). -/
def Sheet.insertCols (s : Sheet F) (before count : Nat) : Sheet F :=
  if count = 0 then s
  else
    { s with
      cols := s.cols.take (min before s.cols.length)
        ++ List.replicate count ⟨s.newColumnLens.map Chunk.empty, []⟩
        ++ s.cols.drop (min before s.cols.length) }

/-- `delete_columns` (mod.rs 4834-4848). -/
def Sheet.deleteCols (s : Sheet F) (start count : Nat) : Sheet F :=
  let stop := min (start + count) s.cols.length
  if count = 0 ∨ s.cols = [] ∨ stop ≤ start then s
  else { s with cols := s.cols.take start ++ s.cols.drop stop }

/-! ### Row edits -/

/-- `PlanItem` (mod.rs 4462-4471, 4646-4652). -/
inductive Item where
  | slice (idx off len : Nat)
  | empty (len : Nat)
  deriving DecidableEq, Repr

def Item.len : Item → Nat
  | .slice _ _ n => n
  | .empty n => n

/-- The loop over the chunk map (mod.rs 4474-4480, 4655-4661): each chunk's number, its start, and its
end (the next start, or the number of rows). -/
def walk (total : Nat) (item : Nat → Nat → Nat → List Item) : Nat → List Nat → List Item
  | _, [] => []
  | i, a :: r => item i a (r.head?.getD total) ++ walk total item (i + 1) r

/-- The body of the loop of `insert_rows` (mod.rs 4481-4514). -/
def insertItem (splitIdx splitOff count : Nat) (i a b : Nat) : List Item :=
  if b - a = 0 then []
  else if i ≠ splitIdx then [.slice i 0 (b - a)]
  else
    (if min splitOff (b - a) > 0 then [.slice i 0 (min splitOff (b - a))] else [])
      ++ [.empty count]
      ++ (if b - a - min splitOff (b - a) > 0 then
          [.slice i (min splitOff (b - a)) (b - a - min splitOff (b - a))] else [])

/-- The body of the loop of `delete_rows` (mod.rs 4662-4705). -/
def deleteItem (start stop : Nat) (i a b : Nat) : List Item :=
  if b - a = 0 then []
  else if b ≤ start ∨ stop ≤ a then [.slice i 0 (b - a)]
  else
    (if a < start then
      if min start b - a > 0 then [.slice i 0 (min start b - a)] else []
    else [])
      ++ (if stop < b then
        if b - stop > 0 then [.slice i (stop - a) (b - stop)] else []
      else [])

/-- The new chunk map (mod.rs 4516-4528, 4707-4717); an item of length zero gets no start. -/
def planStarts : Nat → List Item → List Nat
  | _, [] => []
  | cur, x :: r => if x.len = 0 then planStarts cur r else cur :: planStarts (cur + x.len) r

/-- The chunk for an item (mod.rs 4551-4562, 4740-4750). -/
def produce (E : Env F) (get : Nat → Option (Chunk F)) : Item → Option (Chunk F)
  | .empty _ => none
  | .slice idx off len =>
    match get idx with
    | none => none
    | some ch => if off = 0 ∧ len = ch.len then some ch else some (ch.slice E off len)

/-- The loop that files the chunks into the vector and the map (mod.rs 4546-4574, 4735-4762). -/
def file : Nat → List (Chunk F) → List (Nat × Chunk F) → Bool → List (Option (Chunk F)) → Column F
  | _, dense, sparse, _, [] => ⟨dense, sparse⟩
  | i, dense, sparse, pre, some ch :: r =>
    if pre = true ∧ i = dense.length then file (i + 1) (dense ++ [ch]) sparse pre r
    else file (i + 1) dense (sparse ++ [(i, ch)]) false r
  | i, dense, sparse, pre, none :: r =>
    if pre = true ∧ i = dense.length then file (i + 1) dense sparse false r
    else file (i + 1) dense sparse pre r

/-- A column rebuilt from the plan. -/
def Column.rebuild (E : Env F) (plan : List Item) (c : Column F) : Column F :=
  file 0 [] [] true (plan.map (produce E c.chunk))

/-- The column rebuilt in dense mode by `insert_rows` (mod.rs 4434-4452). -/
def denseInsert (E : Env F) (splitIdx splitOff count : Nat) : Nat → List (Chunk F) → List (Chunk F)
  | _, [] => []
  | i, ch :: r =>
    (if i ≠ splitIdx then [ch]
    else
      (if splitOff > 0 then [ch.slice E 0 splitOff] else [])
        ++ [Chunk.empty count]
        ++ (if splitOff < ch.len then [ch.slice E splitOff (ch.len - splitOff)] else []))
      ++ denseInsert E splitIdx splitOff count (i + 1) r

/-- The column rebuilt in dense mode by `delete_rows` (mod.rs 4611-4636). -/
def denseDelete (E : Env F) (start stop : Nat) : Nat → List (Chunk F) → List (Chunk F)
  | _, [] => []
  | cur, ch :: r =>
    (if cur + ch.len ≤ start ∨ stop ≤ cur then [ch]
    else
      (if max start cur - cur > 0 then [ch.slice E 0 (max start cur - cur)] else [])
        ++ (if cur + ch.len - min stop (cur + ch.len) > 0 then
            [ch.slice E (ch.len - (cur + ch.len - min stop (cur + ch.len)))
              (cur + ch.len - min stop (cur + ch.len))] else []))
      ++ denseDelete E start stop (cur + ch.len) r

/-- Chunk starts for chunks of the given lengths. -/
def sums : Nat → List Nat → List Nat
  | _, [] => []
  | cur, w :: r => cur :: sums (cur + w) r

/-- `recompute_chunk_starts` (mod.rs 3880-3890): from the vector of the first column. -/
def recomputeStarts (cols : List (Column F)) : List Nat :=
  match cols with
  | [] => []
  | c :: _ => sums 0 (c.dense.map Chunk.len)

/-- Where `insert_rows` splits (mod.rs 4422-4431); `none` is the panic of `chunk_of_row`. -/
def Sheet.splitAt (s : Sheet F) (at_ : Nat) : Option (Nat × Nat) :=
  if at_ = s.nrows then some (s.starts.length - 1, s.nrows - s.starts.getD (s.starts.length - 1) 0)
  else s.chunkOfRow at_

/-- `insert_rows` (mod.rs 4397-4580); `none` is a panic. -/
def Sheet.insertRows (E : Env F) (s : Sheet F) (before count : Nat) : Option (Sheet F) :=
  if count = 0 then some s
  else if s.nrows = 0 then
    some { s with
      nrows := count
      starts := if s.starts = [] then [0] else s.starts }
  else
    let s := { s with starts := if s.starts = [] then [0] else s.starts }
    match s.splitAt (min before s.nrows) with
    | none => none
    | some (k, off) =>
      if s.aligned then
        let cols := s.cols.map fun c => (⟨denseInsert E k off count 0 c.dense, []⟩ : Column F)
        some { s with
          cols := cols
          nrows := s.nrows + count
          starts := recomputeStarts cols }
      else
        let plan := walk s.nrows (insertItem k off count) 0 s.starts
        some { s with
          cols := s.cols.map (Column.rebuild E plan)
          nrows := s.nrows + count
          starts := planStarts 0 plan }

/-- `delete_rows` (mod.rs 4583-4768). -/
def Sheet.deleteRows (E : Env F) (s : Sheet F) (start count : Nat) : Sheet F :=
  if count = 0 ∨ s.nrows = 0 ∨ s.nrows ≤ start then s
  else
    let stop := min (start + count) s.nrows
    let s := { s with starts := if s.starts = [] then [0] else s.starts }
    if s.aligned then
      let cols := s.cols.map fun c => (⟨denseDelete E start stop 0 c.dense, []⟩ : Column F)
      { s with
        cols := cols
        nrows := s.nrows - (stop - start)
        starts := recomputeStarts cols }
    else
      let plan := walk s.nrows (deleteItem start stop) 0 s.starts
      { s with
        cols := s.cols.map (Column.rebuild E plan)
        nrows := s.nrows - (stop - start)
        starts := planStarts 0 plan }

/-! ### Writing cells -/

/-- The growth before a write (eval.rs 15357-15367, 15720-15729, 16106-16116). -/
def Sheet.reach (s : Sheet F) (r c : Nat) : Sheet F :=
  let s := if s.cols.length ≤ c then s.insertCols s.cols.length (c + 1 - s.cols.length) else s
  if s.nrows ≤ r then
    (if s.cols = [] then s.insertCols 0 1 else s).ensureRows (r + 1)
  else s

/-- A user's value in one chunk: into the user's overlay, and out of the computed one
(eval.rs 15372-15386). -/
def Chunk.enter (E : Env F) (o : Nat) (v : Value F) (ch : Chunk F) : Chunk F :=
  { ch with
    user := (ch.user.set E o v).1
    comp := (ch.comp.remove E o).1 }

/-- `mirror_value_to_overlay` (eval.rs 15329-15396). -/
def Sheet.setValue (E : Env F) (s : Sheet F) (r c : Nat) (v : Value F) : Option (Sheet F) :=
  let s := s.reach r c
  match s.chunkOfRow r with
  | none => none
  | some (j, o) =>
    some ((s.atChunk c j (Chunk.enter E o v)).atExisting c j (Chunk.compactUser 1024 50))

/-- `clear_delta_overlay_cell` (eval.rs 15401-15423). -/
def Sheet.clearUser (E : Env F) (s : Sheet F) (r c : Nat) : Option (Sheet F) :=
  if s.nrows ≤ r ∨ s.cols.length ≤ c then some s
  else
    match s.chunkOfRow r with
    | none => none
    | some (j, o) => some (s.atExisting c j fun ch => { ch with user := (ch.user.remove E o).1 })

/-- `write_computed_overlay_value_0based` (eval.rs 16079-16130). -/
def Sheet.setComputed (E : Env F) (s : Sheet F) (r c : Nat) (v : Value F) : Option (Sheet F) :=
  let s := s.reach r c
  match s.chunkOfRow r with
  | none => none
  | some (j, o) => some (s.atChunk c j fun ch => { ch with comp := (ch.comp.set E o v).1 })

/-- `set_delta_overlay_cell_raw` (eval.rs 15696-15742). -/
def Sheet.setUserRaw (E : Env F) (s : Sheet F) (r c : Nat) (v : Option (Value F)) :
    Option (Sheet F) :=
  let s := s.reach r c
  match s.chunkOfRow r with
  | none => none
  | some (j, o) => some (s.atChunk c j fun ch =>
      { ch with
        user := match v with
          | some v => (ch.user.set E o v).1
          | none => (ch.user.remove E o).1 })

/-! ## Specification

A sheet as its user sees it: a number of rows, and columns of that many values. -/

structure Grid (α : Type) where
  rows : Nat
  cols : List (List α)

/-- The cell at a row and column; `d` outside the grid. -/
def Grid.at {α : Type} (d : α) (g : Grid α) (r c : Nat) : α :=
  ((g.cols[c]?).bind (·[r]?)).getD d

def Grid.ensureRows {α : Type} (d : α) (g : Grid α) (n : Nat) : Grid α where
  rows := max g.rows n
  cols := g.cols.map (· ++ List.replicate (n - g.rows) d)

def Grid.insertRows {α : Type} (d : α) (g : Grid α) (before count : Nat) : Grid α where
  rows := g.rows + count
  cols := g.cols.map fun c => c.take before ++ List.replicate count d ++ c.drop before

def Grid.deleteRows {α : Type} (g : Grid α) (start count : Nat) : Grid α where
  rows := g.rows - min count (g.rows - start)
  cols := g.cols.map fun c => c.take start ++ c.drop (start + count)

def Grid.insertCols {α : Type} (d : α) (g : Grid α) (before count : Nat) : Grid α where
  rows := g.rows
  cols := g.cols.take before ++ List.replicate count (List.replicate g.rows d) ++ g.cols.drop before

def Grid.deleteCols {α : Type} (g : Grid α) (start count : Nat) : Grid α where
  rows := g.rows
  cols := g.cols.take start ++ g.cols.drop (start + count)

/-- The grid grown to contain a cell. -/
def Grid.reach {α : Type} (d : α) (g : Grid α) (r c : Nat) : Grid α :=
  (g.insertCols d g.cols.length (c + 1 - g.cols.length)).ensureRows d (r + 1)

def Grid.modify {α : Type} (g : Grid α) (r c : Nat) (f : α → α) : Grid α where
  rows := g.rows
  cols := g.cols.modify c (·.modify r f)

/-- What is done to a sheet.  `formula` is a formula entered in a cell and evaluated: the user's entry
is cleared and the result written to the computed overlay. -/
inductive Op (F : Type) where
  | value (r c : Nat) (v : Value F)
  | formula (r c : Nat) (v : Value F)
  | ensureRows (n : Nat)
  | insertRows (before count : Nat)
  | deleteRows (start count : Nat)
  | insertCols (before count : Nat)
  | deleteCols (start count : Nat)
  | compactUser (c j absThreshold fracDen : Nat)
  | compactComputed (c j : Nat)

/-- The operation on the store; `none` is a panic. -/
def Sheet.step (E : Env F) (s : Sheet F) : Op F → Option (Sheet F)
  | .value r c v => s.setValue E r c v
  | .formula r c v => (s.clearUser E r c).bind fun s => s.setComputed E r c v
  | .ensureRows n => some (s.ensureRows n)
  | .insertRows b n => s.insertRows E b n
  | .deleteRows a n => some (s.deleteRows E a n)
  | .insertCols b n => some (s.insertCols b n)
  | .deleteCols a n => some (s.deleteCols a n)
  | .compactUser c j a d => some (s.atExisting c j (Chunk.compactUser a d))
  | .compactComputed c j => some (s.atExisting c j Chunk.compactComputed)

/-- What its user expects. -/
def Grid.step (g : Grid (Value F)) : Op F → Grid (Value F)
  | .value r c v => (g.reach .empty r c).modify r c fun _ => v
  | .formula r c v => (g.reach .empty r c).modify r c fun _ => v
  | .ensureRows n => g.ensureRows .empty n
  | .insertRows b n => g.insertRows .empty b n
  | .deleteRows a n => g.deleteRows a n
  | .insertCols b n => g.insertCols .empty b n
  | .deleteCols a n => g.deleteCols a n
  | .compactUser .. => g
  | .compactComputed .. => g

/-- A history of operations on the store. -/
def Sheet.run (E : Env F) (s : Sheet F) : List (Op F) → Option (Sheet F)
  | [] => some s
  | op :: ops => (s.step E op).bind fun s => s.run E ops

/-- The restrictions under which the store behaves: no more rows are inserted at once than the preferred
chunk length, and rows are inserted and deleted only while the sheet has a column or no rows. -/
def Op.Fine (chunkRows : Nat) (g : Grid (Value F)) : Op F → Prop
  | .insertRows _ n => n ≤ max chunkRows 1 ∧ (g.rows = 0 ∨ g.cols ≠ [])
  | .deleteRows _ _ => g.rows = 0 ∨ g.cols ≠ []
  | _ => True

def AllFine (chunkRows : Nat) : Grid (Value F) → List (Op F) → Prop
  | _, [] => True
  | g, op :: ops => op.Fine chunkRows g ∧ AllFine chunkRows (g.step op) ops

end Verif.Store

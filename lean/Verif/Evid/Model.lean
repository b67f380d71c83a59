import Mathlib.Data.Nat.Basic
import Mathlib.Data.List.Basic

/-!
# Evidence about shared formulas while loading

Models `crates/formualizer-workbook/src/backends/calamine/compressed_evidence.rs`: which shared formulas of a sheet may be
taken as one family over a rectangle, without reading their cells one by one, and how the cells that do not take part are
cut out of the rectangle.
-/

namespace Verif.Evid

/-- `SourceCoord`, `formula_source.rs` 9-12; the fields are `u32`. -/
structure Coord where
  row : ℕ
  col : ℕ
deriving DecidableEq, Repr

/-- The derived order: by row, then by column (`formula_source.rs` 8). -/
def Coord.lt (a b : Coord) : Prop := a.row < b.row ∨ (a.row = b.row ∧ a.col < b.col)

instance (a b : Coord) : Decidable (a.lt b) := by unfold Coord.lt; infer_instance

/-- `<=` of the derived order. -/
def Coord.le (a b : Coord) : Prop := a.row < b.row ∨ (a.row = b.row ∧ a.col ≤ b.col)

instance (a b : Coord) : Decidable (a.le b) := by unfold Coord.le; infer_instance

/-- `SourceRect`, `formula_source.rs` 17-20; `stop` is the field `end`. -/
structure Rect where
  start : Coord
  stop : Coord
deriving DecidableEq, Repr

/-- `valid_rect`, `compressed_evidence.rs` 817-819. -/
def valid (r : Rect) : Prop := r.start.row ≤ r.stop.row ∧ r.start.col ≤ r.stop.col

instance (r : Rect) : Decidable (valid r) := by unfold valid; infer_instance

/-- `contains`, `compressed_evidence.rs` 821-826. -/
def contains (r : Rect) (c : Coord) : Prop := r.start.row ≤ c.row ∧ c.row ≤ r.stop.row ∧ r.start.col ≤ c.col ∧ c.col ≤ r.stop.col

instance (r : Rect) (c : Coord) : Decidable (contains r c) := by unfold contains; infer_instance

/-- `rectangles_overlap`, `compressed_evidence.rs` 828-833. -/
def overlap (a b : Rect) : Prop := a.start.row ≤ b.stop.row ∧ b.start.row ≤ a.stop.row ∧ a.start.col ≤ b.stop.col ∧ b.start.col ≤ a.stop.col

instance (a b : Rect) : Decidable (overlap a b) := by unfold overlap; infer_instance

/-- `checked_sub` and `checked_add(1)` of `u32`, the number of rows or columns from `a` to `b`. -/
def span (a b : ℕ) : Option ℕ := if b < a then none else if 2 ^ 32 ≤ b - a + 1 then none else some (b - a + 1)

/-- `checked_area`, `compressed_evidence.rs` 835-839.  The product of two numbers below `2^32` is within `u64`. -/
def area (r : Rect) : Option ℕ :=
  match span r.start.row r.stop.row, span r.start.col r.stop.col with
  | some h, some w => some (h * w)
  | _, _ => none

/-- `next_coord`, `compressed_evidence.rs` 841-854. -/
def nextCoord (c : Coord) (r : Rect) : Option Coord :=
  if c.col < r.stop.col then some ⟨c.row, c.col + 1⟩ else if c.row < r.stop.row then some ⟨c.row + 1, r.start.col⟩ else none

/-- `coord_offset`, `compressed_evidence.rs` 671-679. -/
def offset (r : Rect) (c : Coord) : Option ℕ :=
  if contains r c then
    match span r.start.col r.stop.col with
    | some w => some ((c.row - r.start.row) * w + (c.col - r.start.col))
    | none => none
  else none

/-- `SourceExclusion`, `compressed_evidence.rs` 18-22. -/
inductive Exclusion where
  | hole (c : Coord)
  | ordinary (c : Coord)
deriving DecidableEq, Repr

/-- `SourceExclusion::coord`, `compressed_evidence.rs` 25-29. -/
def Exclusion.coord : Exclusion → Coord
  | .hole c => c
  | .ordinary c => c

/-- The reasons for not taking a family, texts in the code. -/
inductive Reason where
  | duplicateCoordinate | coordinateDisorder | forwardAnchor | evidenceLimit
  | emptyAnchor | missingRange | invalidRange | startMismatch | outOfRange | otherFamily | unsupported | exclusionCap
  | areaOverflow | proofFailed | fragmentCap | anchorCount
deriving DecidableEq, Repr

/-! ## Cutting exclusions out of a rectangle -/

/-- `PlacementDomainTransport`: a run in a column, a run in a row, or a rectangle. -/
inductive Domain where
  | rowRun (rowStart rowStop col : ℕ)
  | colRun (row colStart colStop : ℕ)
  | rect (r : Rect)
deriving DecidableEq, Repr

/-- The cells of a domain. -/
def Domain.has : Domain → Coord → Prop
  | .rowRun a b col, c => a ≤ c.row ∧ c.row ≤ b ∧ c.col = col
  | .colRun row a b, c => c.row = row ∧ a ≤ c.col ∧ c.col ≤ b
  | .rect r, c => contains r c

/-- `domain_for_rect`, `compressed_evidence.rs` 799-815. -/
def domainFor (r : Rect) : Domain :=
  if r.start.col = r.stop.col then .rowRun r.start.row r.stop.row r.start.col
  else if r.start.row = r.stop.row then .colRun r.start.row r.start.col r.stop.col
  else .rect r

/-- `RowBand`, `compressed_evidence.rs` 681-686. -/
structure Band where
  rowStart : ℕ
  rowStop : ℕ
  intervals : List (ℕ × ℕ)
deriving DecidableEq, Repr

/-- `entry(row).or_default().push(col)` on the `BTreeMap` `excluded_by_row`, `compressed_evidence.rs` 711-717. -/
def pushRow (row col : ℕ) : List (ℕ × List ℕ) → List (ℕ × List ℕ)
  | [] => [(row, [col])]
  | (r, cols) :: m => if row < r then (row, [col]) :: (r, cols) :: m else if row = r then (r, cols ++ [col]) :: m else (r, cols) :: pushRow row col m

/-- The loop over the columns left out of a row, `compressed_evidence.rs` 728-739. -/
def rowIntervals (last : ℕ) : ℕ → List ℕ → Option (List (ℕ × ℕ))
  | next, [] => some (if next ≤ last then [(next, last)] else [])
  | next, c :: cs =>
    if 2 ^ 32 ≤ c + 1 then none
    else (rowIntervals last (c + 1) cs).map fun rest => (if next < c then [(next, c - 1)] else []) ++ rest

/-- `push_band`, `compressed_evidence.rs` 781-797. -/
def pushBand (bands : List Band) (rowStart rowStop : ℕ) (intervals : List (ℕ × ℕ)) : List Band :=
  if intervals = [] then bands
  else
    match bands.getLast? with
    | some b => if b.rowStop + 1 < 2 ^ 32 ∧ b.rowStop + 1 = rowStart ∧ b.intervals = intervals then bands.dropLast ++ [{ b with rowStop := rowStop }] else bands ++ [⟨rowStart, rowStop, intervals⟩]
    | none => bands ++ [⟨rowStart, rowStop, intervals⟩]

/-- The loop over the rows with exclusions, `compressed_evidence.rs` 719-747. `next` is `next_row`; `none` is the error. -/
def bandLoop (d : Rect) : List Band → Option ℕ → List (ℕ × List ℕ) → Option (List Band × Option ℕ)
  | bands, next, [] => some (bands, next)
  | bands, next, (row, cols) :: m =>
    let bands := match next with
      | some start => if start < row then pushBand bands start (row - 1) [(d.start.col, d.stop.col)] else bands
      | none => bands
    match rowIntervals d.stop.col d.start.col cols with
    | none => none
    | some intervals => bandLoop d (pushBand bands row row intervals) (if row + 1 < 2 ^ 32 then some (row + 1) else none) m

/-- The rows after the last exclusion, `compressed_evidence.rs` 745-749. -/
def closeBands (d : Rect) (bands : List Band) : Option ℕ → List Band
  | some start => if start ≤ d.stop.row then pushBand bands start d.stop.row [(d.start.col, d.stop.col)] else bands
  | none => bands

/-- The rectangles of the bands, `compressed_evidence.rs` 756-767. -/
def bandRects (bands : List Band) : List Rect :=
  bands.flatMap fun b => b.intervals.map fun iv => ⟨⟨b.rowStart, iv.1⟩, ⟨b.rowStop, iv.2⟩⟩

/-- The loop over the rectangles, `compressed_evidence.rs` 751-780. The sum of the areas is below `2^64` because the areas are parts of one rectangle; the check is left out. -/
def collect (maxFragments : ℕ) : List Rect → List Domain → List Coord → ℕ → Except Reason (List Domain × List Coord × ℕ)
  | [], fragments, fallback, surviving => .ok (fragments, fallback, surviving)
  | r :: rs, fragments, fallback, surviving =>
    match area r with
    | none => .error .areaOverflow
    | some cells =>
      if cells = 1 then collect maxFragments rs fragments (fallback ++ [r.start]) (surviving + cells)
      else if maxFragments ≤ fragments.length then .error .fragmentCap
      else collect maxFragments rs (fragments ++ [domainFor r]) fallback (surviving + cells)

/-- `windows(2).any(|w| w[0] >= w[1])`, negated. -/
def increasing : List Coord → Bool
  | a :: b :: l => a.lt b && increasing (b :: l)
  | _ => true

/-- `partition_declared_rect`, `compressed_evidence.rs` 688-779. -/
def partition (d : Rect) (exclusions : List Exclusion) (members maxFragments : ℕ) : Except Reason (List Domain × List Coord) :=
  match area d with
  | none => .error .areaOverflow
  | some a =>
    if ¬(members + exclusions.length = a) then .error .proofFailed
    else if !increasing (exclusions.map Exclusion.coord) || exclusions.any (fun x => !contains d x.coord) then .error .proofFailed
    else
      let m := exclusions.foldl (fun m x => pushRow x.coord.row x.coord.col m) []
      match bandLoop d [] (some d.start.row) m with
      | none => .error .areaOverflow
      | some (bands, next) =>
        match collect maxFragments (bandRects (closeBands d bands next)) [] [] 0 with
        | .error e => .error e
        | .ok (fragments, fallback, surviving) => if surviving ≠ members then .error .proofFailed else .ok (fragments, fallback)

/-! ## Observing the records of a sheet -/

/-- `EvidenceRecord`, `compressed_evidence.rs` 45-57. -/
inductive Record where
  | ordinary
  | anchor (family : ℕ) (range : Option Rect) (text : List ℕ)
  | descendant (family : ℕ)
  | unsupported
deriving DecidableEq, Repr

/-- The family a record belongs to, `compressed_evidence.rs` 145-150. -/
def Record.owner : Record → Option ℕ
  | .anchor f _ _ => some f
  | .descendant f => some f
  | _ => none

/-- `FamilyEvidence`, `compressed_evidence.rs` 59-70, without `source_order`. -/
structure Fam where
  members : ℕ := 0
  anchors : ℕ := 0
  anchor : Option Coord := none
  text : Option (List ℕ) := none
  range : Option Rect := none
  next : Option Coord := none
  exclusions : List Exclusion := []
  anomaly : Option Reason := none
deriving Repr

/-- The limits and sizes of the code: `limit`, `max_exclusions`, `max_fragments`, `FAMILY_BYTES`, `RUN_BYTES`, `EXCLUSION_BYTES` and so on. -/
structure Config where
  limit : ℕ
  maxExclusions : ℕ
  maxFragments : ℕ
  familyBytes : ℕ := 256
  runBytes : ℕ := 16
  exclusionBytes : ℕ := 12
  fragmentBytes : ℕ := 20
  coordBytes : ℕ := 8

/-- `MonotonicFormulaEvidence`, `compressed_evidence.rs` 72-83, without the counters of the report.  The families are a function with the default outside `keys`. -/
structure State where
  fams : ℕ → Fam := fun _ => {}
  keys : List ℕ := []
  active : List ℕ := []
  last : Option Coord := none
  halted : Option Reason := none
  bytes : ℕ := 0

/-- `BTreeMap::get_mut` and a change of the value. -/
def State.set (s : State) (f : ℕ) (e : Fam) : State := { s with fams := fun k => if k = f then e else s.fams k }

/-- `halt`, `compressed_evidence.rs` 350-354. -/
def State.halt (s : State) (r : Reason) : State := if s.halted = none then { s with halted := some r } else s

/-- `ensure_family`, `compressed_evidence.rs` 325-348, with `grow`. -/
def State.ensure (cfg : Config) (s : State) (f : ℕ) : State × Bool :=
  if f ∈ s.keys then (s, true)
  else if s.halted ≠ none then (s, false)
  else if cfg.limit < s.bytes + cfg.familyBytes then (s.halt .evidenceLimit, false)
  else ({ s with bytes := s.bytes + cfg.familyBytes, keys := s.keys ++ [f] }, true)

/-- The loop of `append_holes`, `compressed_evidence.rs` 644-651; the Boolean says that the end of the rectangle was met. -/
def holes (r : Rect) : ℕ → Coord → List Exclusion × Bool
  | 0, _ => ([], false)
  | n + 1, c =>
    match nextCoord c r with
    | none => ([.hole c], true)
    | some d => (.hole c :: (holes r n d).1, (holes r n d).2)

/-- `stop_offset` in `append_holes`, `compressed_evidence.rs` 633-637. -/
def stopOffset (r : Rect) (a s : ℕ) : Option Coord → ℕ
  | some c => if contains r c then (offset r c).getD a else if c.le r.start then s else a
  | none => a

/-- The end of `append_holes`, `compressed_evidence.rs` 638-656: holes from place `s` to place `t` of `a`. -/
def fillHoles (e : Fam) (r : Rect) (cursor : Coord) (stop : Option Coord) (cap a s t : ℕ) : Fam :=
  if cap - e.exclusions.length < t - s then { e with anomaly := some .exclusionCap }
  else if (holes r (t - s) cursor).2 then { e with exclusions := e.exclusions ++ (holes r (t - s) cursor).1, next := none }
  else { e with exclusions := e.exclusions ++ (holes r (t - s) cursor).1, next := if t = a then none else stop }

/-- `append_holes`, `compressed_evidence.rs` 618-657. -/
def appendHoles (e : Fam) (r : Rect) (cursor : Coord) (stop : Option Coord) (cap : ℕ) : Fam :=
  match area r with
  | none => { e with anomaly := some .areaOverflow }
  | some a =>
    match offset r cursor with
    | none => { e with anomaly := some .proofFailed }
    | some s => fillHoles e r cursor stop cap a s (stopOffset r a s stop)

/-- `push_exclusion`, `compressed_evidence.rs` 659-669. -/
def pushExclusion (e : Fam) (x : Exclusion) (cap : ℕ) : Fam :=
  if cap ≤ e.exclusions.length then { e with anomaly := some .exclusionCap } else { e with exclusions := e.exclusions ++ [x] }

/-- The match on the disposition in `advance_family_evidence`, `compressed_evidence.rs` 580-599; `mine` says that the family owns the record. -/
def dispose (e : Fam) (r : Rect) (c : Coord) (rec_ : Record) (mine : Bool) (cap : ℕ) : Fam :=
  if mine then { e with next := nextCoord c r }
  else
    match rec_ with
    | .ordinary => { pushExclusion e (.ordinary c) cap with next := nextCoord c r }
    | .unsupported => { e with anomaly := some .unsupported }
    | _ => { e with anomaly := some .otherFamily }

/-- `advance_family_evidence`, `compressed_evidence.rs` 555-601. -/
def advance (e : Fam) (r : Rect) (c : Coord) (rec_ : Record) (mine : Bool) (cap : ℕ) : Fam :=
  if e.anomaly ≠ none then e
  else if r.stop.lt c then
    match e.next with
    | some n => appendHoles e r n none cap
    | none => e
  else if ¬contains r c then e
  else
    let e := match e.next with
      | some n => appendHoles e r n (some c) cap
      | none => e
    if e.anomaly ≠ none then e else dispose e r c rec_ mine cap

/-- The loop of `advance_active_families`, `compressed_evidence.rs` 248-290: the families, those that stay active and the number of exclusions added. -/
def advanceLoop (c : Coord) (rec_ : Record) (cap : ℕ) : List ℕ → (ℕ → Fam) → (ℕ → Fam) × List ℕ × ℕ
  | [], fams => (fams, [], 0)
  | f :: fs, fams =>
    match (fams f).range with
    | none => advanceLoop c rec_ cap fs fams
    | some r =>
      let e := advance (fams f) r c rec_ (rec_.owner = some f) cap
      let rest := advanceLoop c rec_ cap fs fun k => if k = f then e else fams k
      (rest.1, (if c.le r.stop then [f] else []) ++ rest.2.1, (e.exclusions.length - (fams f).exclusions.length) + rest.2.2)

/-- `self.max_exclusions.min(byte_capacity)`, `compressed_evidence.rs` 243-246. -/
def capOf (cfg : Config) (s : State) : ℕ := min cfg.maxExclusions ((cfg.limit - s.bytes) / cfg.exclusionBytes)

/-- `advance_active_families`, `compressed_evidence.rs` 235-296. -/
def State.advance (cfg : Config) (s : State) (c : Coord) (rec_ : Record) : State :=
  let l := advanceLoop c rec_ (capOf cfg s) s.active s.fams
  let s := { s with fams := l.1, active := l.2.1, bytes := s.bytes + l.2.2 * cfg.exclusionBytes }
  if cfg.limit < s.bytes then s.halt .evidenceLimit else s

/-- `get_or_insert` on the anomaly. -/
def Fam.blame (e : Fam) (r : Reason) : Fam := { e with anomaly := e.anomaly.or (some r) }

/-- `mark_range_conflicts`, `compressed_evidence.rs` 298-323. -/
def State.markConflicts (s : State) (owner : ℕ) : Option Rect → State
  | none => s
  | some r =>
    let bad := s.active.filter fun f => decide (f ≠ owner) && match (s.fams f).range with | some q => decide (overlap r q) | none => false
    let fams := fun k => if k ∈ bad ∨ (k = owner ∧ bad ≠ []) then (s.fams k).blame .otherFamily else s.fams k
    { s with fams := fams }

/-- The case of an anchor in `observe_ordered`, `compressed_evidence.rs` 173-219. -/
def State.anchor (cfg : Config) (s : State) (c : Coord) (f : ℕ) (range : Option Rect) (text : List ℕ) : State :=
  let s := s.markConflicts f range
  let e := { s.fams f with anchors := (s.fams f).anchors + 1 }
  if e.members ≠ 1 ∨ e.anchors ≠ 1 then (s.set f e).halt .forwardAnchor
  else
    let e := if text = [] then { e with anomaly := some .emptyAnchor } else e
    match range with
    | none => s.set f { e with anomaly := some .missingRange }
    | some r =>
      if ¬valid r then s.set f { e with anomaly := some .invalidRange }
      else
        let e := if c ≠ r.start then { e with anomaly := some .startMismatch } else e
        let bytes := s.bytes + (cfg.runBytes + text.length)
        if cfg.limit < bytes then (s.set f e).halt .evidenceLimit
        else
          let s := s.set f { e with anchor := some c, text := some text, range := some r, next := nextCoord c r }
          { s with bytes := bytes, active := s.active ++ [f] }

/-- The case of a descendant in `observe_ordered`, `compressed_evidence.rs` 220-229. -/
def State.descendant (s : State) (c : Coord) (f : ℕ) : State :=
  let e := s.fams f
  if e.anchor = none then s.halt .forwardAnchor
  else
    match e.range with
    | some r => if contains r c then s else s.set f (e.blame .outOfRange)
    | none => s.set f (e.blame .outOfRange)

/-- The check of the order in `observe_ordered`, `compressed_evidence.rs` 133-143. -/
def State.order (s : State) (c : Coord) : State :=
  let s := match s.last with
    | some p => if c = p then s.halt .duplicateCoordinate else if c.lt p then s.halt .coordinateDisorder else s
    | none => s
  { s with last := some c }

/-- `observe_ordered`, `compressed_evidence.rs` 119-233. -/
def State.observe (cfg : Config) (s : State) (c : Coord) (rec_ : Record) : State :=
  let s := s.order c
  let p := match rec_.owner with
    | some f =>
      let p := s.ensure cfg f
      if p.2 then (p.1.set f { p.1.fams f with members := (p.1.fams f).members + 1 }, true) else p
    | none => (s, true)
  if p.2 = false then p.1
  else
    let s := p.1
    if s.halted ≠ none then s
    else
      let s := s.advance cfg c rec_
      if s.halted ≠ none then s
      else
        match rec_ with
        | .ordinary => s
        | .unsupported => s
        | .anchor f range text => s.anchor cfg c f range text
        | .descendant f => s.descendant c f

/-- The records of a sheet, one after the other. -/
def observeAll (cfg : Config) (events : List (Coord × Record)) : State := events.foldl (fun s e => s.observe cfg e.1 e.2) {}

/-- The loop at the start of `finish`, `compressed_evidence.rs` 357-374, with `finish_family_evidence` (603-616).  The code goes by the identifiers of the families; the order only matters for the limit of bytes. -/
def finishLoop (cfg : Config) : List ℕ → State → State
  | [], s => s
  | f :: fs, s =>
    let e := s.fams f
    match e.range with
    | none => finishLoop cfg fs s
    | some r =>
      let e' := if e.anomaly ≠ none then e else match e.next with
        | some n => appendHoles e r n none (capOf cfg s)
        | none => e
      finishLoop cfg fs { s.set f e' with bytes := s.bytes + (e'.exclusions.length - e.exclusions.length) * cfg.exclusionBytes }

/-- `SourceFormulaFamily` with a complete domain. -/
structure Clean where
  family : ℕ
  anchor : Coord
  text : List ℕ
  rect : Rect
  members : ℕ
deriving DecidableEq, Repr

/-- `FragmentedFamilyProposal`, `compressed_evidence.rs` 32-43. -/
structure Fragmented where
  family : ℕ
  anchor : Coord
  text : List ℕ
  declared : Rect
  fragments : List Domain
  fallback : List Coord
  exclusions : List Exclusion
  members : ℕ
deriving DecidableEq, Repr

/-- `structurally_valid`, `compressed_evidence.rs` 404-412, with `halted` checked by the caller. -/
def structural (e : Fam) : Bool := e.anomaly = none ∧ e.anchors = 1 ∧ e.next = none ∧ e.range.bind area = some (e.members + e.exclusions.length)

/-- One family in `finish`, `compressed_evidence.rs` 396-495; the number is `retained_bytes`. The `expect`s on the range, the anchor and its text are `none`. -/
def finishOne (cfg : Config) (f : ℕ) (e : Fam) (bytes : ℕ) : Option (Option Clean × Option Fragmented × ℕ) :=
  if structural e then
    match e.range, e.anchor, e.text with
    | some r, some a, some t =>
      if e.exclusions = [] then some (some ⟨f, a, t, r, e.members⟩, none, bytes)
      else
        match partition r e.exclusions e.members cfg.maxFragments with
        | .error _ => some (none, none, bytes)
        | .ok (fragments, fallback) =>
          let n := bytes + (fragments.length * cfg.fragmentBytes + fallback.length * cfg.coordBytes)
          if cfg.limit < n then some (none, none, bytes) else some (none, some ⟨f, a, t, r, fragments, fallback, e.exclusions, e.members⟩, n)
    | _, _, _ => none
  else some (none, none, bytes)

/-- The loop over the families in `finish`, `compressed_evidence.rs` 389-520. -/
def collectFamilies (cfg : Config) (fams : ℕ → Fam) : List ℕ → ℕ → Option (List Clean × List Fragmented)
  | [], _ => some ([], [])
  | f :: fs, bytes =>
    match finishOne cfg f (fams f) bytes with
    | none => none
    | some (c, g, bytes) => (collectFamilies cfg fams fs bytes).map fun p => (c.toList ++ p.1, g.toList ++ p.2)

/-- `finish`, `compressed_evidence.rs` 356-539, without the report. -/
def State.finish (cfg : Config) (s : State) : Option (List Clean × List Fragmented) :=
  if s.halted ≠ none then some ([], [])
  else
    let s := finishLoop cfg s.keys s
    if cfg.limit < s.bytes then some ([], []) else collectFamilies cfg s.fams s.keys s.bytes

/-! ## Specification -/

/-- The record at a cell belongs to the family. -/
def Owns (events : List (Coord × Record)) (f : ℕ) (c : Coord) : Prop := ∃ e ∈ events, e.1 = c ∧ e.2.owner = some f

end Verif.Evid

import Mathlib.Data.List.Basic
import Mathlib.Data.List.Nodup
import Mathlib.Data.List.Range
import Mathlib.Data.List.TakeWhile
import Verif.Store.Lanes

/-!
# Overlay fragments

Models `OverlayFragment` (`/repo/crates/formualizer-eval/src/arrow_store/mod.rs` 1289-1960): the three
compact encodings of a batch of computed cells (sorted offsets, a dense range, a run-length encoded
range) and how one is cut when another write lands on part of it.

* Offsets are natural numbers.  The code stores them as `u32` and panics past that; a sheet has at
  most 2^20 rows.
* `binary_search` on the strictly increasing offset vectors is the position of the element, and
  `partition_point` is the length of the prefix on which the test holds: their documented meaning.
* The derived `PartialEq` on values compares floats with the IEEE test, which is the parameter `same`.
* The memory size Arrow reports for a payload is the parameter `cost`, a function of its values.
-/

namespace Verif.Store

/-- What the model takes from outside: `f64 == f64`, and Arrow's memory size of a payload. -/
structure Env (F : Type) where
  same : F → F → Bool
  cost : List (Value F) → Nat

/-- The derived `PartialEq` of `OverlayValue` (mod.rs 938). -/
def Value.same {F : Type} (E : Env F) : Value F → Value F → Bool
  | .empty, .empty => true
  | .number x, .number y => E.same x y
  | .dateTime x, .dateTime y => E.same x y
  | .duration x, .duration y => E.same x y
  | .boolean x, .boolean y => x == y
  | .text x, .text y => x == y
  | .error x, .error y => x == y
  | .pending, .pending => true
  | _, _ => false

/-- Apply a function to the float of a value. -/
def Value.map {F G : Type} (g : F → G) : Value F → Value G
  | .empty => .empty
  | .number x => .number (g x)
  | .dateTime x => .dateTime (g x)
  | .duration x => .duration (g x)
  | .boolean b => .boolean b
  | .text s => .text s
  | .error c => .error c
  | .pending => .pending

/-- `OverlayFragmentPayload` (mod.rs 1139-1147). -/
structure Payload (F : Type) where
  lanes : Lanes F
  est : Nat

/-- `OverlayFragmentPayload::from_values` (mod.rs 1149-1229). -/
def payload {F : Type} (E : Env F) (vs : List (Value F)) : Payload F := ⟨.ofValues vs, E.cost vs⟩

/-- `OverlayFragment` (mod.rs 1290-1306). -/
inductive Fragment (F : Type) where
  | sparse (offsets : List Nat) (p : Payload F)
  | dense (start len : Nat) (p : Payload F)
  | runs (start len : Nat) (ends : List Nat) (p : Payload F)

/-- `BTreeMap::insert`: the map is the list of its entries in key order. -/
def insertKV {α : Type} (k : Nat) (v : α) : List (Nat × α) → List (Nat × α)
  | [] => [(k, v)]
  | (k', v') :: r =>
    if k < k' then (k, v) :: (k', v') :: r
    else if k = k' then (k, v) :: r
    else (k', v') :: insertKV k v r

/-- The map `by_offset` after inserting the items in order (mod.rs 1312-1315). -/
def byOffset {α : Type} (items : List (Nat × α)) : List (Nat × α) :=
  items.foldl (fun m kv => insertKV kv.1 kv.2 m) []

/-- `sparse_offsets` (mod.rs 1311-1332). -/
def sparseOf {F : Type} (E : Env F) (items : List (Nat × Value F)) : Option (Fragment F) :=
  if (byOffset items).isEmpty then none
  else some (.sparse ((byOffset items).map Prod.fst) (payload E ((byOffset items).map Prod.snd)))

/-- `dense_range` (mod.rs 1345-1355). -/
def denseOf {F : Type} (E : Env F) (start : Nat) (vs : List (Value F)) : Option (Fragment F) :=
  if vs.length = 0 then none else some (.dense start vs.length (payload E vs))

/-- The loop of `run_range` (mod.rs 1364-1373) from index `idx` on, `current` being the value of the
run under construction.  Returns run ends paired with run values. -/
def runLoop {F : Type} (E : Env F) : Nat → Value F → List (Value F) → List (Nat × Value F)
  | idx, current, [] => [(idx, current)]
  | idx, current, v :: r =>
    if Value.same E v current then runLoop E (idx + 1) current r
    else (idx, current) :: runLoop E (idx + 1) v r

/-- The loop of `run_range_from_parts` (mod.rs 1391-1404).  `acc` holds the merged runs, last first. -/
def mergeLoop {F : Type} (E : Env F) (len : Nat) :
    List (Nat × Value F) → List (Nat × Value F) → Nat → Option (List (Nat × Value F) × Nat)
  | [], acc, prev => some (acc, prev)
  | (e, v) :: r, acc, prev =>
    if e ≤ prev ∨ len < e then none
    else
      match acc with
      | [] => mergeLoop E len r [(e, v)] e
      | (e', v') :: a =>
        if Value.same E v' v then mergeLoop E len r ((e, v') :: a) e
        else mergeLoop E len r ((e, v) :: (e', v') :: a) e

/-- `run_range_from_parts` (mod.rs 1378-1416).  The end and value vectors are passed separately, as in
the code: they may differ in length, and then the answer is `None`. -/
def runParts {F : Type} (E : Env F) (start len : Nat) (ends : List Nat) (vs : List (Value F)) :
    Option (Fragment F) :=
  if len = 0 ∨ ends = [] ∨ ends.length ≠ vs.length then none
  else
    match mergeLoop E len (ends.zip vs) [] 0 with
    | none => none
    | some (acc, prev) =>
      if prev ≠ len ∨ (acc.head?.map Prod.fst) ≠ some len then none
      else some (.runs start len (acc.reverse.map Prod.fst) (payload E (acc.reverse.map Prod.snd)))

/-- `run_range` (mod.rs 1357-1376). -/
def runOf {F : Type} (E : Env F) (start : Nat) (vs : List (Value F)) : Option (Fragment F) :=
  match vs with
  | [] => none
  | v :: r =>
    runParts E start vs.length ((runLoop E 1 v r).map Prod.fst) ((runLoop E 1 v r).map Prod.snd)

/-- `estimated_bytes` (mod.rs 1418-1435): 48 bytes, 4 for each stored offset or run end, and the
payload. -/
def Fragment.est {F : Type} : Fragment F → Nat
  | .sparse offs p => 48 + offs.length * 4 + p.est
  | .dense _ _ p => 48 + p.est
  | .runs _ _ ends p => 48 + ends.length * 4 + p.est

/-- `coverage_len` (mod.rs 1437-1445). -/
def Fragment.coverageLen {F : Type} : Fragment F → Nat
  | .sparse offs _ => offs.length
  | .dense _ len _ => len
  | .runs _ len _ _ => len

/-- `get_scalar` (mod.rs 1558-1595). -/
def Fragment.get {F : Type} : Fragment F → Nat → Option (Value F)
  | .sparse offs p, off => (offs.idxOf? off).bind p.lanes.value
  | .dense start len p, off =>
    if off < start then none
    else if len ≤ off - start then none
    else p.lanes.value (off - start)
  | .runs start len ends p, off =>
    if off < start then none
    else if len ≤ off - start then none
    else p.lanes.value (ends.takeWhile (· ≤ off - start)).length

/-- The first stored offset at or after `a` lies before `b` (mod.rs 1480-1484, 1499-1503,
1521-1525). -/
def firstIn (offs : List Nat) (a b : Nat) : Bool :=
  match (offs.dropWhile (· < a)).head? with
  | some off => decide (off < b)
  | none => false

/-- `has_any_in_range` (mod.rs 1475-1491) and `intersects_interval` (mod.rs 1505-1521): the same
test. -/
def Fragment.meets {F : Type} (f : Fragment F) (a b : Nat) : Bool :=
  if b ≤ a then false
  else
    match f with
    | .sparse offs _ => firstIn offs a b
    | .dense start len _ => decide (start < b) && decide (a < start + len)
    | .runs start len _ _ => decide (start < b) && decide (a < start + len)

/-- `sorted_offsets_intersect` (mod.rs 1543-1554): walk both sorted vectors. -/
def sortedMeet : Nat → List Nat → List Nat → Bool
  | 0, _, _ => false
  | _ + 1, [], _ => false
  | _ + 1, _, [] => false
  | n + 1, a :: as, b :: bs =>
    if a = b then true
    else if a < b then sortedMeet n as (b :: bs)
    else sortedMeet n (a :: as) bs

/-- `intersects_sparse_offsets` (mod.rs 1523-1541). -/
def Fragment.meetsOffsets {F : Type} (f : Fragment F) (repl : List Nat) : Bool :=
  if repl.isEmpty then false
  else
    match f with
    | .sparse offs _ => sortedMeet (offs.length + repl.length) offs repl
    | .dense start len _ => firstIn repl start (start + len)
    | .runs start len _ _ => firstIn repl start (start + len)

/-- `intersects_fragment_exact` (mod.rs 1493-1503). -/
def Fragment.meetsFragment {F : Type} (f repl : Fragment F) : Bool :=
  match repl with
  | .sparse offs _ => f.meetsOffsets offs
  | .dense start len _ => f.meets start (start + len)
  | .runs start len _ _ => f.meets start (start + len)

/-- The cells of a sparse fragment whose offset passes a test (mod.rs 1626-1636, 1692-1703,
1888-1896). -/
def sparseCells {F : Type} (test : Nat → Bool) (offs : List Nat) (p : Payload F) :
    List (Nat × Value F) :=
  offs.zipIdx.filterMap fun x =>
    if test x.1 then (p.lanes.value x.2).map (fun v => (x.1, v)) else none

/-- `dense_segment_with_start` (mod.rs 1811-1829) on a dense fragment. -/
def denseSegment {F : Type} (E : Env F) (start : Nat) (p : Payload F)
    (newStart absStart absEnd : Nat) : Option (Fragment F) :=
  if absEnd ≤ absStart then none
  else if absStart < start then none
  else denseOf E newStart (p.lanes.slice (absStart - start) (absEnd - absStart))

/-- The loop of `run_segment_with_start` (mod.rs 1861-1876) from run `idx` on: the new run ends and
the new values. -/
def segmentLoop {F : Type} (relStart relEnd : Nat) (p : Payload F) :
    List Nat → Nat → Nat → List Nat × List (Value F)
  | [], _, _ => ([], [])
  | e :: r, idx, prev =>
    let here : List Nat × List (Value F) :=
      if max prev relStart < min e relEnd then
        ([min e relEnd - relStart], (p.lanes.value idx).toList)
      else ([], [])
    if relEnd ≤ e then here
    else
      let rest := segmentLoop relStart relEnd p r (idx + 1) e
      (here.1 ++ rest.1, here.2 ++ rest.2)

/-- `run_segment_with_start` (mod.rs 1831-1884) on a run fragment. -/
def runSegment {F : Type} (E : Env F) (start len : Nat) (ends : List Nat) (p : Payload F)
    (newStart absStart absEnd : Nat) : Option (Fragment F) :=
  if absEnd ≤ absStart then none
  else if absStart < start ∨ start + len < absEnd then none
  else
    runParts E newStart (absEnd - absStart)
      (segmentLoop (absStart - start) (absEnd - start) p ends 0 0).1
      (segmentLoop (absStart - start) (absEnd - start) p ends 0 0).2

/-- The part of an interval fragment between two absolute offsets, stored from `newStart` on: the
dense or the run version of `*_segment_with_start`. -/
def Fragment.segment {F : Type} (E : Env F) (f : Fragment F) (newStart absStart absEnd : Nat) :
    Option (Fragment F) :=
  match f with
  | .sparse _ _ => none
  | .dense start _ p => denseSegment E start p newStart absStart absEnd
  | .runs start len ends p => runSegment E start len ends p newStart absStart absEnd

/-- Cutting `[a, b)` out of an interval fragment that covers `[start, start + len)`
(mod.rs 1638-1659 and 1660-1681). -/
def Fragment.cut {F : Type} (E : Env F) (f : Fragment F) (start len a b : Nat) :
    List (Fragment F) :=
  if start + len ≤ a ∨ b ≤ start then [f]
  else
    (if start < max a start then (f.segment E start start (max a start)).toList else [])
      ++ (if min b (start + len) < start + len then
            (f.segment E (min b (start + len)) (min b (start + len)) (start + len)).toList
          else [])

/-- `subtract_interval` (mod.rs 1619-1683). -/
def Fragment.minusInterval {F : Type} (E : Env F) (f : Fragment F) (a b : Nat) :
    List (Fragment F) :=
  if b ≤ a then [f]
  else
    match f with
    | .sparse offs p =>
      (sparseOf E (sparseCells (fun off => !(decide (a ≤ off) && decide (off < b))) offs p)).toList
    | .dense start len _ => f.cut E start len a b
    | .runs start len _ _ => f.cut E start len a b

/-- The loop of `sparse_holes_in_interval` (mod.rs 1722-1732), on the offsets from the start of the
interval on. -/
def holesLoop (b : Nat) : List Nat → Option Nat → List Nat
  | [], _ => []
  | off :: r, last =>
    if b ≤ off then []
    else if last ≠ some off then off :: holesLoop b r (some off)
    else holesLoop b r last

/-- `sparse_holes_in_interval` (mod.rs 1714-1734). -/
def holes (offs : List Nat) (a b : Nat) : List Nat :=
  if b ≤ a then [] else holesLoop b (offs.dropWhile (· < a)) none

/-- The segment loop of `subtract_sparse_offsets_from_dense` and `.._from_run`
(mod.rs 1752-1767, 1785-1800). -/
def Fragment.split {F : Type} (E : Env F) (f : Fragment F) (stop : Nat) :
    List Nat → Nat → List (Fragment F)
  | [], segStart =>
    if segStart < stop then (f.segment E segStart segStart stop).toList else []
  | hole :: r, segStart =>
    (if segStart < hole then (f.segment E segStart segStart hole).toList else [])
      ++ f.split E stop r (hole + 1)

/-- `cells` (mod.rs 1886-1921). -/
def Fragment.cells {F : Type} (f : Fragment F) : List (Nat × Value F) :=
  match f with
  | .sparse offs p => sparseCells (fun _ => true) offs p
  | .dense start len p =>
    (List.range len).filterMap fun i => (p.lanes.value i).map (fun v => (start + i, v))
  | .runs start len _ _ =>
    (List.range len).filterMap fun i => (f.get (start + i)).map (fun v => (start + i, v))

/-- `MAX_SPLIT_SEGMENTS_BEFORE_SPARSE_FALLBACK` (mod.rs 1309). -/
def maxSegments : Nat := 128

/-- Taking the offsets of a sorted vector out of an interval fragment (mod.rs 1736-1767,
1769-1800, and `sparse_remainder_excluding_offsets` 1802-1809). -/
def Fragment.punch {F : Type} (E : Env F) (f : Fragment F) (start len : Nat) (repl : List Nat) :
    List (Fragment F) :=
  let hs := holes repl start (start + len)
  if hs = [] then [f]
  else if maxSegments < hs.length + 1 then
    (sparseOf E (f.cells.filter fun c => decide (c.1 ∉ hs))).toList
  else f.split E (start + len) hs start

/-- `subtract_sparse_offsets` (mod.rs 1685-1712). -/
def Fragment.minusOffsets {F : Type} (E : Env F) (f : Fragment F) (repl : List Nat) :
    List (Fragment F) :=
  if repl.isEmpty then [f]
  else
    match f with
    | .sparse offs p => (sparseOf E (sparseCells (fun off => decide (off ∉ repl)) offs p)).toList
    | .dense start len _ => f.punch E start len repl
    | .runs start len _ _ => f.punch E start len repl

/-- `subtract_offset` (mod.rs 1605-1617). -/
def Fragment.minusOffset {F : Type} (E : Env F) (f : Fragment F) (off : Nat) : List (Fragment F) :=
  match f with
  | .sparse _ _ => f.minusOffsets E [off]
  | .dense _ _ _ => f.minusInterval E off (off + 1)
  | .runs _ _ _ _ => f.minusInterval E off (off + 1)

/-- `subtract_fragment` (mod.rs 1597-1603). -/
def Fragment.minus {F : Type} (E : Env F) (f repl : Fragment F) : List (Fragment F) :=
  match repl with
  | .sparse offs _ => f.minusOffsets E offs
  | .dense start len _ => f.minusInterval E start (start + len)
  | .runs start len _ _ => f.minusInterval E start (start + len)

/-- `slice` (mod.rs 1923-1958): the part inside `[off, off + len)`, moved to start at 0. -/
def Fragment.slice {F : Type} (E : Env F) (f : Fragment F) (off len : Nat) : Option (Fragment F) :=
  if len = 0 then none
  else
    match f with
    | .sparse offs p =>
      sparseOf E
        (((List.range (offs.takeWhile (· < off + len)).length).drop
            (offs.takeWhile (· < off)).length).filterMap fun i =>
          (p.lanes.value i).map (fun v => (offs.getD i 0 - off, v)))
    | .dense start flen _ =>
      if min (start + flen) (off + len) ≤ max start off then none
      else f.segment E (max start off - off) (max start off) (min (start + flen) (off + len))
    | .runs start flen _ _ =>
      if min (start + flen) (off + len) ≤ max start off then none
      else f.segment E (max start off - off) (max start off) (min (start + flen) (off + len))

end Verif.Store

/-
The index of regions.

Source: /repo/crates/formualizer-eval/src/formula_plane/region_index.rs, lines 593-1712 (`SheetRegionIndex`).

Simplifications.
* A map from keys to vectors of entry numbers (`BTreeMap<K, Vec<usize>>`, `FxHashMap<..>`) is the list of its pairs
  (key, entry number): looking a key up gives the numbers paired with it, iterating with a test on the key gives the
  numbers whose key passes.  A range of a `BTreeMap` is such a test as well.  The order of iteration is not modelled:
  what comes out goes to a hash set.
* The trees are those of `Verif.Interval` (interval_tree.rs), one for each key.
* The value stored with an entry is the entry's number, which is how all the callers use the index.
* `RectRegion::new` asserts that its ends are in order.  The constructors of `Region` assert that already
  (`Region.Ok`), so the assertion is not modelled.
* Epochs and statistics are left out.
-/
import Verif.Plane.Region
import Verif.Interval.Props

namespace Verif.Plane

open Verif.Interval (Tree)

/-- A `BTreeMap<(SheetId, u32), IntervalTree<usize>>`. -/
abbrev Trees := List ((Nat × Nat) × Tree Nat)

/-- `.entry(k).or_default().insert(low, high, id)`. -/
def putTree (k : Nat × Nat) (lo hi id : Nat) : Trees → Trees
  | [] => [(k, Verif.Interval.insert {} lo hi id)]
  | (k', t) :: rest =>
    if k' = k then (k', Verif.Interval.insert t lo hi id) :: rest else (k', t) :: putTree k lo hi id rest

/-- region_index.rs 1474-1483, `extend_tree_query`. -/
def treeIds (t : Tree Nat) (lo hi : Nat) : List Nat := (Verif.Interval.query t lo hi).flatMap fun e => e.2.2

/-- region_index.rs 593-612, `SheetRegionIndex`. -/
structure Index where
  entries : List Region := []
  pointsByRow : List ((Nat × Nat × Nat) × Nat) := []
  pointsByCol : List ((Nat × Nat × Nat) × Nat) := []
  colIntervals : Trees := []
  rowIntervals : Trees := []
  rectBuckets : List ((Nat × Nat × Nat) × Nat) := []
  rectBucketsByCol : List ((Nat × Nat × Nat) × Nat) := []
  rowsFrom : List ((Nat × Nat) × Nat) := []
  colsFrom : List ((Nat × Nat) × Nat) := []
  wholeRows : List ((Nat × Nat) × Nat) := []
  wholeCols : List ((Nat × Nat) × Nat) := []
  wholeSheets : List (Nat × Nat) := []
  bucketRows : Nat := 64
  bucketCols : Nat := 16

namespace Index

/-- `a..=b`. -/
def upTo (a b : Nat) : List Nat := (List.range (b + 1 - a)).map (a + ·)

/-- region_index.rs 1485-1491, `row_bucket` and `col_bucket`. -/
def rowBucket (x : Index) (row : Nat) : Nat := row / x.bucketRows
def colBucket (x : Index) (col : Nat) : Nat := col / x.bucketCols

/-- region_index.rs 1698-1711, `rect_buckets_for_rect`. -/
def bucketsForRect (x : Index) (sheet rs re cs ce : Nat) : List (Nat × Nat × Nat) :=
  (upTo (x.rowBucket rs) (x.rowBucket re)).flatMap fun rb =>
    (upTo (x.colBucket cs) (x.colBucket ce)).map fun cb => (sheet, rb, cb)

/-- region_index.rs 1118-1219, `index_entry`. -/
def indexEntry (x : Index) (id : Nat) (r : Region) : Index :=
  match r.rows, r.cols with
  | .point row, .point col =>
    { x with
      pointsByRow := x.pointsByRow ++ [((r.sheet, row, col), id)]
      pointsByCol := x.pointsByCol ++ [((r.sheet, col, row), id)] }
  | .span rs re, .point col => { x with colIntervals := putTree (r.sheet, col) rs re id x.colIntervals }
  | .point row, .span cs ce => { x with rowIntervals := putTree (r.sheet, row) cs ce id x.rowIntervals }
  | .span rs re, .span cs ce =>
    { x with
      rectBuckets := x.rectBuckets ++ (x.bucketsForRect r.sheet rs re cs ce).map fun b => (b, id)
      rectBucketsByCol := x.rectBucketsByCol ++
        (x.bucketsForRect r.sheet rs re cs ce).map fun b => ((b.1, b.2.2, b.2.1), id) }
  | .from_ rs, .all => { x with rowsFrom := x.rowsFrom ++ [((r.sheet, rs), id)] }
  | .all, .from_ cs => { x with colsFrom := x.colsFrom ++ [((r.sheet, cs), id)] }
  | .point row, .all => { x with wholeRows := x.wholeRows ++ [((r.sheet, row), id)] }
  | .all, .point col => { x with wholeCols := x.wholeCols ++ [((r.sheet, col), id)] }
  | .all, .all => { x with wholeSheets := x.wholeSheets ++ [(r.sheet, id)] }
  | _, _ => { x with wholeSheets := x.wholeSheets ++ [(r.sheet, id)] }

/-- region_index.rs 661-673, `insert`. -/
def insert (x : Index) (r : Region) : Index :=
  indexEntry { x with entries := x.entries ++ [r] } x.entries.length r.normalized

/-- region_index.rs 1493-1507, `collect_points_matching`. -/
def pointsMatching (x : Index) (sheet : Nat) (p : Nat → Nat → Bool) : List Nat :=
  (x.pointsByRow.filter fun e => e.1.1 == sheet && p e.1.2.1 e.1.2.2).map Prod.snd

/-- region_index.rs 1245-1247 (and 801-803): `points_by_row.get(..)`. -/
def pointExact (x : Index) (sheet row col : Nat) : List Nat :=
  (x.pointsByRow.filter fun e => e.1 == (sheet, row, col)).map Prod.snd

/-- region_index.rs 1501-1512 and 1531-1542, `collect_col_interval_exact_col` and `collect_row_interval_exact_row`. -/
def intervalExact (m : Trees) (sheet k lo hi : Nat) : List Nat :=
  (m.filter fun e => e.1 == (sheet, k)).flatMap fun e => treeIds e.2 lo hi

/-- region_index.rs 1514-1529 and 1544-1559, `collect_col_intervals_matching` and `collect_row_intervals_matching`. -/
def intervalsMatching (m : Trees) (sheet : Nat) (p : Nat → Bool) (lo hi : Nat) : List Nat :=
  (m.filter fun e => e.1.1 == sheet && p e.1.2).flatMap fun e => treeIds e.2 lo hi

/-- region_index.rs 1569-1579, `collect_rect_bucket_key`. -/
def rectKey (x : Index) (sheet rb cb : Nat) : List Nat :=
  (x.rectBuckets.filter fun e => e.1 == (sheet, rb, cb)).map Prod.snd

/-- region_index.rs 1581-1593, `collect_rect_bucket_row_span_point_col`. -/
def rectRowSpanPointCol (x : Index) (sheet rs re col : Nat) : List Nat :=
  (upTo (x.rowBucket rs) (x.rowBucket re)).flatMap fun rb => x.rectKey sheet rb (x.colBucket col)

/-- region_index.rs 1595-1607, `collect_rect_bucket_point_row_col_span`. -/
def rectPointRowColSpan (x : Index) (sheet row cs ce : Nat) : List Nat :=
  (upTo (x.colBucket cs) (x.colBucket ce)).flatMap fun cb => x.rectKey sheet (x.rowBucket row) cb

/-- region_index.rs 1609-1622, `collect_rect_buckets_matching`. -/
def rectMatching (x : Index) (sheet : Nat) (p : Nat → Nat → Bool) : List Nat :=
  (x.rectBuckets.filter fun e => e.1.1 == sheet && p e.1.2.1 e.1.2.2).map Prod.snd

/-- region_index.rs 1624-1648, `collect_rows_from_through` and `collect_cols_from_through`. -/
def fromThrough (m : List ((Nat × Nat) × Nat)) (sheet e : Nat) : List Nat :=
  (m.filter fun q => q.1.1 == sheet && decide (q.1.2 ≤ e)).map Prod.snd

/-- region_index.rs 1650-1660, `collect_whole_row_exact` and `collect_whole_col_exact`. -/
def wholeExact (m : List ((Nat × Nat) × Nat)) (sheet k : Nat) : List Nat :=
  (m.filter fun q => q.1 == (sheet, k)).map Prod.snd

/-- region_index.rs 1662-1690, `collect_whole_rows_matching` and `collect_whole_cols_matching`. -/
def wholeMatching (m : List ((Nat × Nat) × Nat)) (sheet : Nat) (p : Nat → Bool) : List Nat :=
  (m.filter fun q => q.1.1 == sheet && p q.1.2).map Prod.snd

/-- region_index.rs 1692-1696, `collect_whole_sheet`. -/
def wholeSheet (x : Index) (sheet : Nat) : List Nat := (x.wholeSheets.filter fun q => q.1 == sheet).map Prod.snd

/-- region_index.rs 1452-1456, the last arm of `collect_candidates`: every entry of the sheet. -/
def sheetEntries (x : Index) (sheet : Nat) : List Nat :=
  (List.range x.entries.length).filter fun id => (x.entries[id]?.map Region.sheet) == some sheet

/-- region_index.rs 1216-1462, `collect_candidates`. -/
def collect (x : Index) (q : Region) : List Nat :=
  match q.rows, q.cols with
  | .point row, .point col =>
    x.pointExact q.sheet row col ++ intervalExact x.colIntervals q.sheet col row row ++
      intervalExact x.rowIntervals q.sheet row col col ++
      x.rectKey q.sheet (x.rowBucket row) (x.colBucket col) ++
      fromThrough x.rowsFrom q.sheet row ++ fromThrough x.colsFrom q.sheet col ++
      wholeExact x.wholeRows q.sheet row ++ wholeExact x.wholeCols q.sheet col ++ x.wholeSheet q.sheet
  | .span rs re, .point col =>
    x.pointsMatching q.sheet (fun r c => decide (rs ≤ r) && decide (r ≤ re) && c == col) ++
      intervalExact x.colIntervals q.sheet col rs re ++
      intervalsMatching x.rowIntervals q.sheet (fun r => decide (rs ≤ r) && decide (r ≤ re)) col col ++
      x.rectRowSpanPointCol q.sheet rs re col ++
      fromThrough x.rowsFrom q.sheet re ++ fromThrough x.colsFrom q.sheet col ++
      wholeMatching x.wholeRows q.sheet (fun r => decide (rs ≤ r) && decide (r ≤ re)) ++
      wholeExact x.wholeCols q.sheet col ++ x.wholeSheet q.sheet
  | .point row, .span cs ce =>
    x.pointsMatching q.sheet (fun r c => r == row && decide (cs ≤ c) && decide (c ≤ ce)) ++
      intervalsMatching x.colIntervals q.sheet (fun c => decide (cs ≤ c) && decide (c ≤ ce)) row row ++
      intervalExact x.rowIntervals q.sheet row cs ce ++
      x.rectPointRowColSpan q.sheet row cs ce ++
      fromThrough x.rowsFrom q.sheet row ++ fromThrough x.colsFrom q.sheet ce ++
      wholeExact x.wholeRows q.sheet row ++
      wholeMatching x.wholeCols q.sheet (fun c => decide (cs ≤ c) && decide (c ≤ ce)) ++ x.wholeSheet q.sheet
  | .span rs re, .span cs ce =>
    x.pointsMatching q.sheet (fun r c => decide (rs ≤ r) && decide (r ≤ re) && decide (cs ≤ c) && decide (c ≤ ce)) ++
      intervalsMatching x.colIntervals q.sheet (fun c => decide (cs ≤ c) && decide (c ≤ ce)) rs re ++
      intervalsMatching x.rowIntervals q.sheet (fun r => decide (rs ≤ r) && decide (r ≤ re)) cs ce ++
      ((x.bucketsForRect q.sheet rs re cs ce).flatMap fun b => x.rectKey b.1 b.2.1 b.2.2) ++
      fromThrough x.rowsFrom q.sheet re ++ fromThrough x.colsFrom q.sheet ce ++
      wholeMatching x.wholeRows q.sheet (fun r => decide (rs ≤ r) && decide (r ≤ re)) ++
      wholeMatching x.wholeCols q.sheet (fun c => decide (cs ≤ c) && decide (c ≤ ce)) ++ x.wholeSheet q.sheet
  | .from_ rs, .all =>
    x.pointsMatching q.sheet (fun r _ => decide (r ≥ rs)) ++
      intervalsMatching x.colIntervals q.sheet (fun _ => true) rs u32Max ++
      intervalsMatching x.rowIntervals q.sheet (fun r => decide (r ≥ rs)) 0 u32Max ++
      x.rectMatching q.sheet (fun rb _ => decide (rb ≥ x.rowBucket rs)) ++
      fromThrough x.rowsFrom q.sheet u32Max ++ fromThrough x.colsFrom q.sheet u32Max ++
      wholeMatching x.wholeRows q.sheet (fun r => decide (r ≥ rs)) ++
      wholeMatching x.wholeCols q.sheet (fun _ => true) ++ x.wholeSheet q.sheet
  | .all, .from_ cs =>
    x.pointsMatching q.sheet (fun _ c => decide (c ≥ cs)) ++
      intervalsMatching x.colIntervals q.sheet (fun c => decide (c ≥ cs)) 0 u32Max ++
      intervalsMatching x.rowIntervals q.sheet (fun _ => true) cs u32Max ++
      x.rectMatching q.sheet (fun _ cb => decide (cb ≥ x.colBucket cs)) ++
      fromThrough x.rowsFrom q.sheet u32Max ++ fromThrough x.colsFrom q.sheet u32Max ++
      wholeMatching x.wholeRows q.sheet (fun _ => true) ++
      wholeMatching x.wholeCols q.sheet (fun c => decide (c ≥ cs)) ++ x.wholeSheet q.sheet
  | .point row, .all =>
    x.pointsMatching q.sheet (fun r _ => r == row) ++
      intervalsMatching x.colIntervals q.sheet (fun _ => true) row row ++
      intervalExact x.rowIntervals q.sheet row 0 u32Max ++
      x.rectMatching q.sheet (fun rb _ => rb == x.rowBucket row) ++
      fromThrough x.rowsFrom q.sheet row ++ fromThrough x.colsFrom q.sheet u32Max ++
      wholeExact x.wholeRows q.sheet row ++
      wholeMatching x.wholeCols q.sheet (fun _ => true) ++ x.wholeSheet q.sheet
  | .all, .point col =>
    x.pointsMatching q.sheet (fun _ c => c == col) ++
      intervalExact x.colIntervals q.sheet col 0 u32Max ++
      intervalsMatching x.rowIntervals q.sheet (fun _ => true) col col ++
      x.rectMatching q.sheet (fun _ cb => cb == x.colBucket col) ++
      fromThrough x.rowsFrom q.sheet u32Max ++ fromThrough x.colsFrom q.sheet col ++
      wholeMatching x.wholeRows q.sheet (fun _ => true) ++
      wholeExact x.wholeCols q.sheet col ++ x.wholeSheet q.sheet
  | .all, .all =>
    x.pointsMatching q.sheet (fun _ _ => true) ++
      intervalsMatching x.colIntervals q.sheet (fun _ => true) 0 u32Max ++
      intervalsMatching x.rowIntervals q.sheet (fun _ => true) 0 u32Max ++
      x.rectMatching q.sheet (fun _ _ => true) ++
      fromThrough x.rowsFrom q.sheet u32Max ++ fromThrough x.colsFrom q.sheet u32Max ++
      wholeMatching x.wholeRows q.sheet (fun _ => true) ++
      wholeMatching x.wholeCols q.sheet (fun _ => true) ++ x.wholeSheet q.sheet
  | _, _ => x.sheetEntries q.sheet

/-- `self.entries[id]` for each candidate, kept when its region meets the query; `none` stands for the panic of an index
out of range. -/
def keep (x : Index) (q : Region) : List Nat → Option (List Nat)
  | [] => some []
  | id :: ids =>
    match x.entries[id]? with
    | none => none
    | some r =>
      match keep x q ids with
      | none => none
      | some rest => some (if r.intersects q then id :: rest else rest)

/-- region_index.rs 703-730, `query`: the numbers of the entries found.  The hash set of candidates is `eraseDups`. -/
def query (x : Index) (q : Region) : Option (List Nat) := x.keep q (x.collect q.normalized).eraseDups

/-- An index with the given buckets (region_index.rs 640-659). -/
def empty (br bc : Nat) : Index :=
  { bucketRows := br
    bucketCols := bc }

/-- An index filled by inserting the regions one after the other. -/
def build (br bc : Nat) (rs : List Region) : Index := rs.foldl insert (empty br bc)

end Index
end Verif.Plane

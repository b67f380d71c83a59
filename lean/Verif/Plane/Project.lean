/-
Which cells of a span become dirty when a region changes.

Source: /repo/crates/formualizer-eval/src/formula_plane/producer.rs, lines 616-979 (`DirtyProjectionRule`,
`AxisProjection`) and 1245-1507 (their helpers).

A function that returns `Result<T, ProjectionFallbackReason>` returns `Option T` here; `none` is the error, whatever its
reason.  An `i64` is an integer with the checks written out.
-/
import Verif.Plane.Region

namespace Verif.Plane

/-- producer.rs 37-42, `ProducerDirtyDomain`. -/
inductive Dom where
  | whole
  | cells (l : List Key)
  | regions (l : List Region)
deriving DecidableEq, Repr

/-- producer.rs 843-846, `AxisProjection`. -/
inductive AxisProj where
  | rel (offset : Int)
  | abs (index : Nat)
deriving DecidableEq, Repr

/-- producer.rs 622-639, `DirtyProjectionRule`. -/
inductive Rule where
  | cell (row col : AxisProj)
  | range (rowStart rowEnd colStart colEnd : AxisProj)
  | wholeCols (colStart colEnd : AxisProj)
  | wholeResult
deriving DecidableEq, Repr

/-- producer.rs 972-981, `ProjectionResult`, without the reasons. -/
inductive Projection where
  | exact_ (d : Dom)
  | conservative (d : Dom)
  | noIntersection
  | unsupported
deriving DecidableEq, Repr

/-- producer.rs 1382-1388, `add_offset`. -/
def addOffset (v : Nat) (o : Int) : Option Nat :=
  if (v : Int) + o < i64Min ∨ i64Max < (v : Int) + o then none
  else if 0 ≤ (v : Int) + o ∧ (v : Int) + o ≤ u32Max then some ((v : Int) + o).toNat
  else none

/-- `checked_neg` on `i64`. -/
def checkedNeg (o : Int) : Option Int := if o = i64Min then none else some (-o)

/-- producer.rs 1487-1493, `normalize_axis_range`. -/
def normRange : AxisRange → AxisRange
  | .span s e => if s = e then .point s else .span s e
  | .from_ s => if s = 0 then .all else .from_ s
  | .to e => if e = u32Max then .all else .to e
  | r => r

/-- producer.rs 1472-1485, `axis_range_from_u32_bounds`. -/
def rangeOfBounds (low high : Nat) : AxisRange :=
  normRange (
    if low = high then .point low
    else if low = 0 ∧ high = u32Max then .all
    else if high = u32Max then .from_ low
    else if low = 0 then .to high
    else .span low high)

/-- producer.rs 1492-1494, `shifted_coord_for_clip`. -/
def shiftClip (v : Nat) (o : Int) : Int :=
  if (v : Int) + o < i64Min ∨ i64Max < (v : Int) + o then i64Max else (v : Int) + o

/-- producer.rs 1461-1470, `axis_range_from_shifted_bounds`. -/
def rangeOfShifted (low high : Int) : Option AxisRange :=
  if low > high ∨ high < 0 ∨ low > u32Max then none
  else some (rangeOfBounds (AxisRange.clampU32 low) (AxisRange.clampU32 high))

/-- producer.rs 1390-1419, `project_axis_range_through_offset` (with `checked_shift_to_u32`, 1496-1499). -/
def shiftRange (r : AxisRange) (o : Int) : Option AxisRange :=
  match r with
  | .point p => (addOffset p o).map .point
  | .span s e => rangeOfShifted (shiftClip s o) (shiftClip e o)
  | .from_ s =>
    if shiftClip s o < 0 then some .all else some (normRange (.from_ (AxisRange.clampU32 (shiftClip s o))))
  | .to e =>
    if shiftClip e o < 0 then none else some (normRange (.to (AxisRange.clampU32 (shiftClip e o))))
  | .all => some .all

/-- producer.rs 1421-1437, `project_axis_interval_through_offsets`. -/
def shiftInterval (s e : Nat) (lowOffset highOffset : Int) : Option (Option AxisRange) :=
  match checkedNeg lowOffset with
  | none => none
  | some lo =>
    match checkedNeg highOffset with
    | none => none
    | some hi => some (rangeOfShifted (shiftClip s lo) (shiftClip e hi))

/-- producer.rs 1442-1458, the last arm of `intersect_axis_ranges`. -/
def meetBounds (a b : AxisRange) : Option AxisRange :=
  if max a.bounds.1 b.bounds.1 ≤ min a.bounds.2 b.bounds.2 then
    some (rangeOfBounds (max a.bounds.1 b.bounds.1) (min a.bounds.2 b.bounds.2))
  else none

/-- producer.rs 1439-1456, `intersect_axis_ranges`. -/
def meetRange : AxisRange → AxisRange → Option AxisRange
  | .all, r => some (normRange r)
  | r, .all => some (normRange r)
  | .from_ l, .from_ r => some (normRange (.from_ (max l r)))
  | .to l, .to r => some (normRange (.to (min l r)))
  | l, r => meetBounds l r

namespace AxisProj

/-- producer.rs 842-853, `source_extent_for_result`. -/
def sourceExtent (a : AxisProj) (low high : Nat) : Option (Nat × Nat) :=
  match a with
  | .rel o =>
    match addOffset low o with
    | none => none
    | some l =>
      match addOffset high o with
      | none => none
      | some h => some (l, h)
  | .abs i => some (i, i)

/-- producer.rs 855-873, `project_changed_axis`. -/
def projectChanged (a : AxisProj) (changed result : AxisRange) : Option (Option AxisRange) :=
  match a with
  | .rel o =>
    match checkedNeg o with
    | none => none
    | some n =>
      match shiftRange changed n with
      | none => some none
      | some dirty => some (meetRange dirty result)
  | .abs i => some (if changed.contains i then some result else none)

end AxisProj

/-- producer.rs 883-897, `range_source_extent_for_result`. -/
def rangeSourceExtent (s e : AxisProj) (low high : Nat) : Option (Nat × Nat) :=
  match s.sourceExtent low high with
  | none => none
  | some a =>
    match e.sourceExtent low high with
    | none => none
    | some b => some (min a.1 b.1, max a.2 b.2)

/-- producer.rs 922-951, the arm of `project_changed_range_axis` for two relative bounds. -/
def changedRelRel (so eo : Int) (changed : AxisRange) : Option (Option AxisRange) :=
  match changed with
  | .all => some (some .all)
  | .point p => shiftInterval p p (max so eo) (min so eo)
  | .span s e => shiftInterval s e (max so eo) (min so eo)
  | .from_ s => (checkedNeg (max so eo)).map fun n => shiftRange (.from_ s) n
  | .to e => (checkedNeg (min so eo)).map fun n => shiftRange (.to e) n

/-- producer.rs 963-979 (`changed` is an interval `[a, b]`): the arm for one relative and one absolute bound. -/
def changedMixed (o : Int) (index : Nat) (changed : AxisRange) : Option (Option AxisRange) :=
  match checkedNeg o with
  | none => none
  | some n => some (
      if changed.bounds.1 ≤ index ∧ index ≤ changed.bounds.2 then some .all
      else if index < changed.bounds.1 then shiftRange (.from_ changed.bounds.1) n
      else shiftRange (.to changed.bounds.2) n)

/-- `Ok(dirty.and_then(|dirty| intersect_axis_ranges(dirty, result)))`. -/
def clip (dirty : Option (Option AxisRange)) (result : AxisRange) : Option (Option AxisRange) :=
  dirty.map fun d => d.bind fun d => meetRange d result

/-- producer.rs 899-970, `project_changed_range_axis`. -/
def rangeProjectChanged (s e : AxisProj) (changed result : AxisRange) : Option (Option AxisRange) :=
  match s, e with
  | .rel so, .rel eo => clip (changedRelRel so eo changed) result
  | .abs si, .abs ei =>
    some (if (AxisRange.span (min si ei) (max si ei)).intersects changed then some result else none)
  | .rel o, .abs i => clip (changedMixed o i changed) result
  | .abs i, .rel o => clip (changedMixed o i changed) result

/-- producer.rs 1265-1272, `BoundedRange::from_axis_range`. -/
def boundedOf : AxisRange → Option (Nat × Nat)
  | .point p => some (p, p)
  | .span s e => some (s, e)
  | _ => none

/-- producer.rs 1300-1306, `bounded_extents`. -/
def boundedExtents (r : Region) : Option ((Nat × Nat) × (Nat × Nat)) :=
  match boundedOf r.rows with
  | none => none
  | some a =>
    match boundedOf r.cols with
    | none => none
    | some b => some (a, b)

/-- producer.rs 1362-1373, `region_from_bounded_extents`. -/
def regionOfExtents (sheet : Nat) (rows cols : Nat × Nat) : Region :=
  ⟨sheet, if rows.1 = rows.2 then .point rows.1 else .span rows.1 rows.2,
    if cols.1 = cols.2 then .point cols.1 else .span cols.1 cols.2⟩

/-- producer.rs 1329-1360, `region_from_axis_ranges`.  It never fails. -/
def regionOfRanges (sheet : Nat) (rows cols : AxisRange) : Region :=
  match rows, cols with
  | .point r, .point c => ⟨sheet, .point r, .point c⟩
  | .span s e, .point c => ⟨sheet, .span s e, .point c⟩
  | .point r, .span s e => ⟨sheet, .point r, .span s e⟩
  | .span s e, .span s' e' => ⟨sheet, .span s e, .span s' e'⟩
  | .from_ s, .all => ⟨sheet, .from_ s, .all⟩
  | .all, .from_ s => ⟨sheet, .all, .from_ s⟩
  | .point r, .all => ⟨sheet, .point r, .all⟩
  | .all, .point c => ⟨sheet, .all, .point c⟩
  | .all, .all => ⟨sheet, .all, .all⟩
  | rows, cols => regionOfExtents sheet rows.bounds cols.bounds

/-- producer.rs 1375-1380, `dirty_domain_from_region`. -/
def domOfRegion (r : Region) : Dom :=
  match r.asPoint with
  | some k => .cells [k]
  | none => .regions [r]

/-- producer.rs 1308-1327, `projection_result_from_axis_ranges`. -/
def projectionOfRanges (sheet : Nat) (rows cols : AxisRange) (bounded : Bool) : Projection :=
  if !bounded && rows.isBounded && cols.isBounded then .unsupported
  else .exact_ (domOfRegion (regionOfRanges sheet rows cols))

/-- producer.rs 777-800 and 802-834: the two axes are projected one after the other. -/
def projectAxes (sheet : Nat) (rows cols : Option (Option AxisRange)) (bounded : Bool) : Projection :=
  match rows with
  | none => .unsupported
  | some none => .noIntersection
  | some (some r) =>
    match cols with
    | none => .unsupported
    | some none => .noIntersection
    | some (some c) => projectionOfRanges sheet r c bounded

namespace Rule

/-- producer.rs 688-722, `read_region_for_result`. -/
def readRegion (rule : Rule) (sheet : Nat) (result : Region) : Option Region :=
  match rule with
  | .wholeResult => none
  | .wholeCols _ _ => none
  | .cell row col =>
    match boundedExtents result with
    | none => none
    | some (rr, rc) =>
      match row.sourceExtent rr.1 rr.2 with
      | none => none
      | some sr =>
        match col.sourceExtent rc.1 rc.2 with
        | none => none
        | some sc => some (regionOfExtents sheet sr sc)
  | .range rs re cs ce =>
    match boundedExtents result with
    | none => none
    | some (rr, rc) =>
      match rangeSourceExtent rs re rr.1 rr.2 with
      | none => none
      | some sr =>
        match rangeSourceExtent cs ce rc.1 rc.2 with
        | none => none
        | some sc => some (regionOfExtents sheet sr sc)

/-- producer.rs 718-745, `read_regions_for_result`.  The width cannot overflow: `checked_sub` fails when the ends are
out of order, which the union of two extents never is, and `checked_add(1)` fails for a width of `u32::MAX`. -/
def readRegions (rule : Rule) (sheet : Nat) (result : Region) : Option (List Region) :=
  match rule with
  | .cell _ _ => (rule.readRegion sheet result).map fun r => [r]
  | .range _ _ _ _ => (rule.readRegion sheet result).map fun r => [r]
  | .wholeResult => none
  | .wholeCols cs ce =>
    match boundedExtents result with
    | none => none
    | some (_, rc) =>
      match rangeSourceExtent cs ce rc.1 rc.2 with
      | none => none
      | some sc =>
        if sc.2 < sc.1 ∨ u32Max < sc.2 - sc.1 + 1 then none
        else if sc.2 - sc.1 + 1 > 256 then none
        else some ((List.range (sc.2 + 1 - sc.1)).map fun i => Region.wholeCol sheet (sc.1 + i))

/-- producer.rs 747-818, `project_changed_region`. -/
def project (rule : Rule) (changed read result : Region) : Projection :=
  if !changed.intersects read then .noIntersection
  else
    match rule with
    | .wholeResult => .exact_ .whole
    | .wholeCols _ _ => .exact_ (.regions [result])
    | .cell row col =>
      projectAxes result.sheet (row.projectChanged changed.rows result.rows)
        (col.projectChanged changed.cols result.cols) (boundedExtents result).isSome
    | .range rs re cs ce =>
      projectAxes result.sheet (rangeProjectChanged rs re changed.rows result.rows)
        (rangeProjectChanged cs ce changed.cols result.cols) (boundedExtents result).isSome

/-- producer.rs 655-665: `shift`. -/
def shiftProj (a : AxisProj) (d : Int) : AxisProj :=
  match a with
  | .rel o => .rel (max i64Min (min i64Max (o + d)))
  | .abs i => .abs i

/-- producer.rs 652-686, `with_relative_offsets_shifted`. -/
def shifted (rule : Rule) (rd cd : Int) : Rule :=
  if rd = 0 ∧ cd = 0 then rule
  else
    match rule with
    | .cell r c => .cell (shiftProj r rd) (shiftProj c cd)
    | .range rs re cs ce => .range (shiftProj rs rd) (shiftProj re rd) (shiftProj cs cd) (shiftProj ce cd)
    | .wholeCols cs ce => .wholeCols (shiftProj cs cd) (shiftProj ce cd)
    | .wholeResult => .wholeResult

end Rule

/-! ### What the rules and domains mean -/

/-- The coordinate a reference points to from coordinate `p`. -/
def AxisProj.at_ (a : AxisProj) (p : Nat) : Int :=
  match a with
  | .rel o => p + o
  | .abs i => i

/-- `x` lies between `a` and `b`, which may be in either order. -/
def Between (a b x : Int) : Prop := (a ≤ x ∧ x ≤ b) ∨ (b ≤ x ∧ x ≤ a)

/-- The formula at `p` reads cell `k` through the rule; the rule refers to `sheet`. -/
def Rule.Reads (rule : Rule) (sheet : Nat) (p k : Key) : Prop :=
  match rule with
  | .cell row col => k.sheet = sheet ∧ (k.row : Int) = row.at_ p.row ∧ (k.col : Int) = col.at_ p.col
  | .range rs re cs ce =>
    k.sheet = sheet ∧ Between (rs.at_ p.row) (re.at_ p.row) k.row ∧ Between (cs.at_ p.col) (ce.at_ p.col) k.col
  | .wholeCols cs ce => k.sheet = sheet ∧ Between (cs.at_ p.col) (ce.at_ p.col) k.col
  | .wholeResult => False

/-- The cells of a domain, for a producer whose results are in `result`. -/
def Dom.Has (d : Dom) (result : Region) (k : Key) : Prop :=
  match d with
  | .whole => result.Has k
  | .cells l => k ∈ l
  | .regions l => ∃ r ∈ l, r.Has k

/-- The cells that a projection marks dirty; `False` for none, `None` when it gives up. -/
def Projection.Marks (p : Projection) (result : Region) (k : Key) : Prop :=
  match p with
  | .exact_ d => d.Has result k
  | .conservative d => d.Has result k
  | .noIntersection => False
  | .unsupported => False

end Verif.Plane

/-
Regions of cells, as used for formula spans.

Source: /repo/crates/formualizer-eval/src/formula_plane/region_index.rs, lines 16-470.

A coordinate is a `u32`.  It is modelled by a natural number; the largest one is `u32Max`.  `SheetId` is a natural
number as well.  Offsets (`i64`) are integers.
-/
import Mathlib.Tactic.SplitIfs
import Mathlib.Tactic.Cases

namespace Verif.Plane

/-- `u32::MAX`. -/
def u32Max : Nat := 4294967295

/-- `i64::MAX`. -/
def i64Max : Int := 9223372036854775807

/-- `i64::MIN`. -/
def i64Min : Int := -9223372036854775808

/-- region_index.rs 16-21, `RegionKey`: one cell. -/
structure Key where
  sheet : Nat
  row : Nat
  col : Nat
deriving DecidableEq, Repr

/-- region_index.rs 280-287, `AxisRange`. -/
inductive AxisRange where
  | point (p : Nat)
  | span (s e : Nat)
  | from_ (s : Nat)
  | to (e : Nat)
  | all
deriving DecidableEq, Repr

namespace AxisRange

/-- region_index.rs 289-324, `AxisRange::intersects`. -/
def intersects : AxisRange → AxisRange → Bool
  | point p1, point p2 => p1 == p2
  | point p1, span s2 e2 => s2 ≤ p1 && p1 ≤ e2
  | point p1, from_ s2 => p1 ≥ s2
  | point p1, to e2 => p1 ≤ e2
  | point _, all => true
  | span s1 e1, point p2 => s1 ≤ p2 && p2 ≤ e1
  | span s1 e1, span s2 e2 => s1 ≤ e2 && s2 ≤ e1
  | span _ e1, from_ s2 => s2 ≤ e1
  | span s1 _, to e2 => s1 ≤ e2
  | span _ _, all => true
  | from_ s1, point p2 => p2 ≥ s1
  | from_ s1, span _ e2 => s1 ≤ e2
  | from_ _, from_ _ => true
  | from_ s1, to e2 => s1 ≤ e2
  | from_ _, all => true
  | to e1, point p2 => p2 ≤ e1
  | to e1, span s2 _ => s2 ≤ e1
  | to e1, from_ s2 => s2 ≤ e1
  | to _, to _ => true
  | to _, all => true
  | all, point _ => true
  | all, span _ _ => true
  | all, from_ _ => true
  | all, to _ => true
  | all, all => true

/-- region_index.rs 326-335, `AxisRange::contains`. -/
def contains : AxisRange → Nat → Bool
  | point p, c => c == p
  | span s e, c => s ≤ c && c ≤ e
  | from_ s, c => c ≥ s
  | to e, c => c ≤ e
  | all, _ => true

/-- region_index.rs 366-374, `AxisRange::query_bounds`. -/
def bounds : AxisRange → Nat × Nat
  | point p => (p, p)
  | span s e => (s, e)
  | from_ s => (s, u32Max)
  | to e => (0, e)
  | all => (0, u32Max)

/-- region_index.rs 344-346: the two `matches!` that say the range has a lower end of its own. -/
def lowOpen : AxisRange → Bool
  | to _ => true
  | all => true
  | _ => false

/-- region_index.rs 346-347: the range has no upper end of its own. -/
def highOpen : AxisRange → Bool
  | from_ _ => true
  | all => true
  | _ => false

/-- region_index.rs 337-356, `AxisRange::intersection`. -/
def intersection (a b : AxisRange) : Option AxisRange :=
  let low := max a.bounds.1 b.bounds.1
  let high := min a.bounds.2 b.bounds.2
  if low > high then none
  else
    let boundedLow := !a.lowOpen || !b.lowOpen
    let boundedHigh := !a.highOpen || !b.highOpen
    match boundedLow, boundedHigh with
    | false, false => some all
    | true, false => some (from_ low)
    | false, true => some (to high)
    | true, true => if low = high then some (point low) else some (span low high)

/-- region_index.rs 358-363, `AxisRange::contains_range`. -/
def containsRange (a b : AxisRange) : Bool := a.bounds.1 ≤ b.bounds.1 && a.bounds.2 ≥ b.bounds.2

/-- region_index.rs 372-374, `AxisRange::is_bounded`. -/
def isBounded : AxisRange → Bool
  | point _ => true
  | span _ _ => true
  | _ => false

/-- region_index.rs 381-383 (`shifted`): `saturating_add` on `i64`. -/
def shifted (v : Nat) (o : Int) : Int := max i64Min (min i64Max (v + o))

/-- region_index.rs 385-391 (`clamp_u32`), and producer.rs 1501-1507 (`clamp_i64_to_u32`), which is the same. -/
def clampU32 (v : Int) : Nat := if v < 0 then 0 else if v ≤ u32Max then v.toNat else u32Max

/-- region_index.rs 381-431, `AxisRange::project_through_offset`. -/
def projectThroughOffset (r : AxisRange) (o : Int) : Option AxisRange :=
  match r with
  | point p =>
    let q := shifted p o
    if 0 ≤ q ∧ q ≤ u32Max then some (point q.toNat) else none
  | span s e =>
    let ps := shifted s o
    let pe := shifted e o
    if pe < 0 ∨ ps > u32Max then none else some (span (clampU32 ps) (clampU32 pe))
  | from_ s =>
    let ps := shifted s o
    if ps < 0 then some all else some (from_ (clampU32 ps))
  | to e =>
    let pe := shifted e o
    if pe < 0 then none else some (to (clampU32 pe))
  | all => some all

/-- region_index.rs 433-441, `AxisRange::normalized`. -/
def normalized : AxisRange → AxisRange
  | span s e => if s = e then point s else span s e
  | r => r

/-! ### What a range means -/

/-- The coordinates a range stands for. -/
def Has (r : AxisRange) (x : Nat) : Prop :=
  match r with
  | point p => x = p
  | span s e => s ≤ x ∧ x ≤ e
  | from_ s => s ≤ x
  | to e => x ≤ e
  | all => True

/-- A range that the constructors of `Region` let through (they assert `start <= end`): its coordinates fit in `u32` and
the ends are in order. -/
def Ok : AxisRange → Prop
  | point p => p ≤ u32Max
  | span s e => s ≤ e ∧ e ≤ u32Max
  | from_ s => s ≤ u32Max
  | to e => e ≤ u32Max
  | all => True

theorem contains_iff (r : AxisRange) (x : Nat) : r.contains x = true ↔ r.Has x := by
  cases r <;> simp [contains, Has]

theorem bounds_ok {r : AxisRange} (h : r.Ok) : r.bounds.1 ≤ r.bounds.2 ∧ r.bounds.2 ≤ u32Max := by
  cases r <;> simp_all [Ok, bounds]

theorem has_iff_bounds (r : AxisRange) {x : Nat} (hx : x ≤ u32Max) :
    r.Has x ↔ r.bounds.1 ≤ x ∧ x ≤ r.bounds.2 := by
  cases r <;> simp [Has, bounds] <;> omega

theorem intersects_iff_bounds {a b : AxisRange} (ha : a.Ok) (hb : b.Ok) :
    a.intersects b = true ↔ a.bounds.1 ≤ b.bounds.2 ∧ b.bounds.1 ≤ a.bounds.2 := by
  cases a <;> cases b <;> simp_all [intersects, bounds, Ok] <;> omega

/-- Two ranges intersect in the sense of the code exactly when they have a coordinate in common. -/
theorem intersects_iff {a b : AxisRange} (ha : a.Ok) (hb : b.Ok) :
    a.intersects b = true ↔ ∃ x, x ≤ u32Max ∧ a.Has x ∧ b.Has x := by
  rw [intersects_iff_bounds ha hb]
  have h1 := bounds_ok ha
  have h2 := bounds_ok hb
  constructor
  · intro h
    refine ⟨max a.bounds.1 b.bounds.1, by omega, ?_, ?_⟩
    · rw [has_iff_bounds a (by omega)]; omega
    · rw [has_iff_bounds b (by omega)]; omega
  · rintro ⟨x, hx, hax, hbx⟩
    rw [has_iff_bounds a hx] at hax
    rw [has_iff_bounds b hx] at hbx
    omega

theorem lowOpen_bounds {r : AxisRange} (h : r.lowOpen = true) : r.bounds.1 = 0 := by
  cases r <;> simp_all [lowOpen, bounds]

theorem highOpen_bounds {r : AxisRange} (h : r.highOpen = true) : r.bounds.2 = u32Max := by
  cases r <;> simp_all [highOpen, bounds]

/-- `intersection` is what its name says: the coordinates common to both, and `None` when there are none. -/
theorem intersection_spec {a b : AxisRange} (ha : a.Ok) (hb : b.Ok) :
    (∀ r, a.intersection b = some r → r.Ok ∧ ∀ x, x ≤ u32Max → (r.Has x ↔ a.Has x ∧ b.Has x)) ∧
      (a.intersection b = none → ∀ x, x ≤ u32Max → ¬ (a.Has x ∧ b.Has x)) := by
  have h1 := bounds_ok ha
  have h2 := bounds_ok hb
  unfold intersection
  dsimp only
  split
  · next hgt =>
    refine ⟨by simp, fun _ x hx => ?_⟩
    rw [has_iff_bounds a hx, has_iff_bounds b hx]
    omega
  · next hle =>
    generalize hl : (!a.lowOpen || !b.lowOpen) = bl
    generalize hh : (!a.highOpen || !b.highOpen) = bh
    have hl' : bl = false → a.bounds.1 = 0 ∧ b.bounds.1 = 0 := by
      rintro rfl
      simp only [Bool.or_eq_false_iff, Bool.not_eq_false'] at hl
      exact ⟨lowOpen_bounds hl.1, lowOpen_bounds hl.2⟩
    have hh' : bh = false → a.bounds.2 = u32Max ∧ b.bounds.2 = u32Max := by
      rintro rfl
      simp only [Bool.or_eq_false_iff, Bool.not_eq_false'] at hh
      exact ⟨highOpen_bounds hh.1, highOpen_bounds hh.2⟩
    have key : ∀ r : AxisRange, r.Ok → r.bounds.1 = max a.bounds.1 b.bounds.1 →
        r.bounds.2 = min a.bounds.2 b.bounds.2 → r.Ok ∧ ∀ x, x ≤ u32Max → (r.Has x ↔ a.Has x ∧ b.Has x) := by
      intro r hr e1 e2
      refine ⟨hr, fun x hx => ?_⟩
      rw [has_iff_bounds a hx, has_iff_bounds b hx, has_iff_bounds r hx, e1, e2]
      omega
    have key' : ∀ r : AxisRange, r.Ok ∧ r.bounds.1 = max a.bounds.1 b.bounds.1 ∧
        r.bounds.2 = min a.bounds.2 b.bounds.2 → (∀ r', some r = some r' → r'.Ok ∧ ∀ x, x ≤ u32Max →
          (r'.Has x ↔ a.Has x ∧ b.Has x)) ∧ (some r = none → ∀ x, x ≤ u32Max → ¬ (a.Has x ∧ b.Has x)) := by
      rintro r ⟨hr, e1, e2⟩
      refine ⟨fun r' h => ?_, by simp⟩
      obtain rfl := Option.some.inj h
      exact key r hr e1 e2
    clear key
    generalize a.bounds = A at *
    generalize b.bounds = B at *
    obtain ⟨al, ah⟩ := A
    obtain ⟨bl', bh'⟩ := B
    dsimp only at *
    cases bl <;> cases bh <;> dsimp only
    · have := hl' rfl; have := hh' rfl
      exact key' _ ⟨trivial, by simp only [bounds]; omega, by simp only [bounds]; omega⟩
    · have := hl' rfl
      exact key' _ ⟨by simp only [Ok]; omega, by simp only [bounds]; omega, by simp only [bounds]⟩
    · have := hh' rfl
      exact key' _ ⟨by simp only [Ok]; omega, by simp only [bounds], by simp only [bounds]; omega⟩
    · split
      · next heq => exact key' _ ⟨by simp only [Ok]; omega, by simp only [bounds], by simp only [bounds]; omega⟩
      · next hne => exact key' _ ⟨by simp only [Ok]; omega, by simp only [bounds], by simp only [bounds]⟩

/-- `contains_range` is inclusion. -/
theorem containsRange_iff {a b : AxisRange} (hb : b.Ok) :
    a.containsRange b = true ↔ ∀ x, x ≤ u32Max → b.Has x → a.Has x := by
  have h2 := bounds_ok hb
  simp only [containsRange, Bool.and_eq_true, decide_eq_true_eq]
  constructor
  · intro h x hx hbx
    rw [has_iff_bounds b hx] at hbx
    rw [has_iff_bounds a hx]
    omega
  · intro h
    have e1 := h b.bounds.1 (by omega) (by rw [has_iff_bounds b (by omega)]; omega)
    have e2 := h b.bounds.2 (by omega) (by rw [has_iff_bounds b (by omega)]; omega)
    rw [has_iff_bounds a (by omega)] at e1 e2
    omega

theorem normalized_has (r : AxisRange) (x : Nat) : r.normalized.Has x ↔ r.Has x := by
  cases r with
  | span s e =>
    simp only [normalized]
    split
    · next h => subst h; simp only [Has]; omega
    · exact Iff.rfl
  | _ => exact Iff.rfl

theorem normalized_ok {r : AxisRange} (h : r.Ok) : r.normalized.Ok := by
  cases r with
  | span s e =>
    simp only [normalized]
    split
    · next h' => subst h'; simp only [Ok] at *; omega
    · exact h
  | _ => exact h

theorem shifted_eq {v : Nat} {o : Int} (hv : v ≤ u32Max) (ho : i64Min ≤ o ∧ o ≤ i64Max - u32Max) :
    shifted v o = v + o := by
  unfold i64Min i64Max u32Max at *
  simp only [shifted, i64Min, i64Max]
  omega

theorem clampU32_eq (v : Int) : (clampU32 v : Int) = max 0 (min v u32Max) := by
  unfold clampU32 u32Max
  split_ifs <;> omega

/-- Shifting a range by an offset (far from the ends of `i64`): every coordinate of the range whose image is a coordinate
lands in the shifted range.  (For the open ranges the shifted range may have more: `From` and `To` stay open.) -/
theorem projectThroughOffset_has {r : AxisRange} (hr : r.Ok) {o : Int} (ho : i64Min ≤ o ∧ o ≤ i64Max - u32Max)
    {x y : Nat} (hx : r.Has x) (hy : y ≤ u32Max) (hxy : (y : Int) = x + o) :
    ∃ r', r.projectThroughOffset o = some r' ∧ r'.Has y := by
  cases r with
  | point p =>
    simp only [Has] at hx
    subst hx
    simp only [projectThroughOffset]
    rw [shifted_eq hr ho, if_pos (by omega)]
    exact ⟨_, rfl, by simp only [Has]; omega⟩
  | span s e =>
    simp only [Has] at hx
    simp only [Ok] at hr
    simp only [projectThroughOffset]
    rw [shifted_eq hr.2 ho, shifted_eq (Nat.le_trans hr.1 hr.2) ho, if_neg (by omega)]
    refine ⟨_, rfl, ?_⟩
    have h1 := clampU32_eq (s + o)
    have h2 := clampU32_eq (e + o)
    simp only [Has]
    omega
  | from_ s =>
    simp only [Has] at hx
    simp only [projectThroughOffset]
    rw [shifted_eq hr ho]
    split
    · exact ⟨_, rfl, trivial⟩
    · refine ⟨_, rfl, ?_⟩
      have h1 := clampU32_eq (s + o)
      simp only [Has]
      omega
  | to e =>
    simp only [Has] at hx
    simp only [projectThroughOffset]
    rw [shifted_eq hr ho, if_neg (by omega)]
    refine ⟨_, rfl, ?_⟩
    have h1 := clampU32_eq (e + o)
    simp only [Has]
    omega
  | all => exact ⟨_, rfl, trivial⟩

end AxisRange

/-- region_index.rs 76-81, `Region`. -/
structure Region where
  sheet : Nat
  rows : AxisRange
  cols : AxisRange
deriving DecidableEq, Repr

namespace Region

/-- region_index.rs 99-104, `Region::intersects`. -/
def intersects (a b : Region) : Bool := a.sheet == b.sheet && a.rows.intersects b.rows && a.cols.intersects b.cols

/-- region_index.rs 106-116, `Region::intersection`. -/
def intersection (a b : Region) : Option Region :=
  if a.sheet ≠ b.sheet then none
  else
    match a.rows.intersection b.rows with
    | none => none
    | some rows =>
      match a.cols.intersection b.cols with
      | none => none
      | some cols => some ⟨a.sheet, rows, cols⟩

/-- region_index.rs 118-123, `Region::contains_region`. -/
def containsRegion (a b : Region) : Bool :=
  a.sheet == b.sheet && a.rows.containsRange b.rows && a.cols.containsRange b.cols

/-- region_index.rs 125-128, `Region::contains_key`. -/
def containsKey (r : Region) (k : Key) : Bool := r.sheet == k.sheet && r.rows.contains k.row && r.cols.contains k.col

/-- region_index.rs 130-136, `Region::point`. -/
def point (sheet row col : Nat) : Region := ⟨sheet, .point row, .point col⟩

/-- region_index.rs 196-202, `Region::whole_col`. -/
def wholeCol (sheet col : Nat) : Region := ⟨sheet, .all, .point col⟩

/-- region_index.rs 243-250, `Region::normalized`. -/
def normalized (r : Region) : Region := ⟨r.sheet, r.rows.normalized, r.cols.normalized⟩

/-- region_index.rs 252-263, `Region::as_point`. -/
def asPoint (r : Region) : Option Key :=
  match r.rows, r.cols with
  | .point row, .point col => some ⟨r.sheet, row, col⟩
  | _, _ => none

/-- region_index.rs 265-272, `Region::project_through_axis_shift`. -/
def projectThroughAxisShift (r : Region) (dr dc : Int) : Option Region :=
  match r.rows.projectThroughOffset dr with
  | none => none
  | some rows =>
    match r.cols.projectThroughOffset dc with
    | none => none
    | some cols => some ⟨r.sheet, rows, cols⟩

/-! ### What a region means -/

/-- The cell is in the region. -/
def Has (r : Region) (k : Key) : Prop := k.sheet = r.sheet ∧ r.rows.Has k.row ∧ r.cols.Has k.col

/-- Both axes are as the constructors make them. -/
def Ok (r : Region) : Prop := r.rows.Ok ∧ r.cols.Ok

end Region

/-- The coordinates of the cell fit in `u32`. -/
def Key.Fits (k : Key) : Prop := k.row ≤ u32Max ∧ k.col ≤ u32Max

namespace Region

theorem containsKey_iff (r : Region) (k : Key) : r.containsKey k = true ↔ r.Has k := by
  simp only [containsKey, Bool.and_eq_true, beq_iff_eq, AxisRange.contains_iff, Has]
  constructor
  · rintro ⟨⟨h1, h2⟩, h3⟩; exact ⟨h1.symm, h2, h3⟩
  · rintro ⟨h1, h2, h3⟩; exact ⟨⟨h1.symm, h2⟩, h3⟩

/-- Two regions intersect in the sense of the code exactly when they have a cell in common. -/
theorem intersects_iff {a b : Region} (ha : a.Ok) (hb : b.Ok) :
    a.intersects b = true ↔ ∃ k : Key, k.Fits ∧ a.Has k ∧ b.Has k := by
  simp only [intersects, Bool.and_eq_true, beq_iff_eq, AxisRange.intersects_iff ha.1 hb.1,
    AxisRange.intersects_iff ha.2 hb.2]
  constructor
  · rintro ⟨⟨hs, r, hr, hra, hrb⟩, c, hc, hca, hcb⟩
    exact ⟨⟨a.sheet, r, c⟩, ⟨hr, hc⟩, ⟨rfl, hra, hca⟩, ⟨hs, hrb, hcb⟩⟩
  · rintro ⟨k, ⟨hr, hc⟩, ⟨hs1, hra, hca⟩, ⟨hs2, hrb, hcb⟩⟩
    exact ⟨⟨hs1.symm.trans hs2, k.row, hr, hra, hrb⟩, k.col, hc, hca, hcb⟩

/-- `intersection` gives exactly the cells common to both regions, and `None` when there are none. -/
theorem intersection_spec {a b : Region} (ha : a.Ok) (hb : b.Ok) :
    (∀ r, a.intersection b = some r → r.Ok ∧ ∀ k : Key, k.Fits → (r.Has k ↔ a.Has k ∧ b.Has k)) ∧
      (a.intersection b = none → ∀ k : Key, k.Fits → ¬ (a.Has k ∧ b.Has k)) := by
  have hr := AxisRange.intersection_spec ha.1 hb.1
  have hc := AxisRange.intersection_spec ha.2 hb.2
  unfold intersection
  split
  · next hs =>
    refine ⟨by simp, fun _ k _ h => hs (h.1.1.symm.trans h.2.1)⟩
  · next hs =>
    have hs : a.sheet = b.sheet := Classical.not_not.mp hs
    cases h1 : a.rows.intersection b.rows with
    | none =>
      refine ⟨by simp, fun _ k hk h => hr.2 h1 k.row hk.1 ⟨h.1.2.1, h.2.2.1⟩⟩
    | some rows =>
      cases h2 : a.cols.intersection b.cols with
      | none =>
        refine ⟨by simp, fun _ k hk h => hc.2 h2 k.col hk.2 ⟨h.1.2.2, h.2.2.2⟩⟩
      | some cols =>
        refine ⟨fun r h => ?_, by simp⟩
        have h := Option.some.inj h
        subst h
        refine ⟨⟨(hr.1 rows h1).1, (hc.1 cols h2).1⟩, fun k hk => ?_⟩
        simp only [Has, (hr.1 rows h1).2 k.row hk.1, (hc.1 cols h2).2 k.col hk.2, hs]
        constructor
        · rintro ⟨e, ⟨p1, p2⟩, p3, p4⟩; exact ⟨⟨e, p1, p3⟩, e, p2, p4⟩
        · rintro ⟨⟨e, p1, p3⟩, _, p2, p4⟩; exact ⟨e, ⟨p1, p2⟩, p3, p4⟩

theorem AxisRange.ok_has {r : AxisRange} (h : r.Ok) : ∃ x, x ≤ u32Max ∧ r.Has x := by
  have hb := AxisRange.bounds_ok h
  exact ⟨r.bounds.1, by omega, by rw [AxisRange.has_iff_bounds r (by omega)]; omega⟩

/-- `contains_region` is inclusion of the sets of cells. -/
theorem containsRegion_iff {a b : Region} (hb : b.Ok) :
    a.containsRegion b = true ↔ ∀ k : Key, k.Fits → b.Has k → a.Has k := by
  simp only [containsRegion, Bool.and_eq_true, beq_iff_eq, AxisRange.containsRange_iff hb.1,
    AxisRange.containsRange_iff hb.2]
  obtain ⟨r0, hr0, hr0'⟩ := AxisRange.ok_has hb.1
  obtain ⟨c0, hc0, hc0'⟩ := AxisRange.ok_has hb.2
  constructor
  · rintro ⟨⟨hs, hr⟩, hc⟩ k hk ⟨h1, h2, h3⟩
    exact ⟨h1.trans hs.symm, hr _ hk.1 h2, hc _ hk.2 h3⟩
  · intro h
    refine ⟨⟨?_, fun x hx hbx => ?_⟩, fun x hx hbx => ?_⟩
    · exact ((h ⟨b.sheet, r0, c0⟩ ⟨hr0, hc0⟩ ⟨rfl, hr0', hc0'⟩).1).symm
    · exact (h ⟨b.sheet, x, c0⟩ ⟨hx, hc0⟩ ⟨rfl, hbx, hc0'⟩).2.1
    · exact (h ⟨b.sheet, r0, x⟩ ⟨hr0, hx⟩ ⟨rfl, hr0', hbx⟩).2.2

theorem normalized_has (r : Region) (k : Key) : r.normalized.Has k ↔ r.Has k := by
  simp only [normalized, Has, AxisRange.normalized_has]

theorem normalized_ok {r : Region} (h : r.Ok) : r.normalized.Ok :=
  ⟨AxisRange.normalized_ok h.1, AxisRange.normalized_ok h.2⟩

theorem point_has (s r c : Nat) (k : Key) : (point s r c).Has k ↔ k = ⟨s, r, c⟩ := by
  cases k
  simp only [point, Has, AxisRange.Has, Key.mk.injEq]

theorem asPoint_some {r : Region} {k : Key} (h : r.asPoint = some k) : r = point k.sheet k.row k.col := by
  unfold asPoint at h
  obtain ⟨s, rows, cols⟩ := r
  cases rows <;> cases cols <;> simp_all [point]
  subst h
  simp

/-- A point region and a rectangle that share one cell. -/
example : (point 0 3 4).intersects ⟨0, .span 2 5, .from_ 4⟩ = true := by decide
example : (⟨0, .span 2 5, .all⟩ : Region).intersection ⟨0, .from_ 4, .to 7⟩ = some ⟨0, .span 4 5, .to 7⟩ := by decide
example : (⟨0, .all, .all⟩ : Region).containsRegion ⟨0, .from_ 4, .to 7⟩ = true := by decide
example : (AxisRange.span 2 5).projectThroughOffset (-3) = some (.span 0 2) := by decide

end Region
end Verif.Plane

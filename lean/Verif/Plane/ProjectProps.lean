/-
The cells marked dirty are exactly the cells that read what changed.
-/
import Verif.Plane.Project

namespace Verif.Plane

open AxisRange (clampU32 clampU32_eq)

theorem has_point (p x : Nat) : (AxisRange.point p).Has x ↔ x = p := Iff.rfl
theorem has_span (s e x : Nat) : (AxisRange.span s e).Has x ↔ s ≤ x ∧ x ≤ e := Iff.rfl
theorem has_from (s x : Nat) : (AxisRange.from_ s).Has x ↔ s ≤ x := Iff.rfl
theorem has_to (e x : Nat) : (AxisRange.to e).Has x ↔ x ≤ e := Iff.rfl
theorem has_all (x : Nat) : AxisRange.all.Has x ↔ 0 ≤ x := ⟨fun _ => Nat.zero_le x, fun _ => trivial⟩

theorem normRange_has {r : AxisRange} {x : Nat} (hx : x ≤ u32Max) : (normRange r).Has x ↔ r.Has x := by
  cases r <;> simp only [normRange] <;> (try split) <;> simp only [has_point, has_span, has_from, has_to, has_all] <;> omega

theorem normRange_ok {r : AxisRange} (h : r.Ok) : (normRange r).Ok := by
  cases r <;> simp only [normRange] <;> (try split) <;> simp only [AxisRange.Ok] at * <;> omega

theorem rangeOfBounds_has {lo hi x : Nat} (hx : x ≤ u32Max) : (rangeOfBounds lo hi).Has x ↔ lo ≤ x ∧ x ≤ hi := by
  unfold rangeOfBounds
  rw [normRange_has hx]
  split_ifs <;> simp only [has_point, has_span, has_from, has_to, has_all] <;> omega

theorem rangeOfBounds_ok {lo hi : Nat} (h : lo ≤ hi) (hh : hi ≤ u32Max) : (rangeOfBounds lo hi).Ok := by
  unfold rangeOfBounds
  refine normRange_ok ?_
  split_ifs <;> simp only [AxisRange.Ok] <;> omega

theorem meetBounds_spec {a b : AxisRange} (ha : a.Ok) (hb : b.Ok) :
    (∀ r, meetBounds a b = some r → r.Ok) ∧ ∀ x, x ≤ u32Max →
      ((∃ r, meetBounds a b = some r ∧ r.Has x) ↔ a.Has x ∧ b.Has x) := by
  have h1 := AxisRange.bounds_ok ha
  have h2 := AxisRange.bounds_ok hb
  unfold meetBounds
  constructor
  · intro r hr
    split at hr
    · next hle => rw [← Option.some.inj hr]; exact rangeOfBounds_ok hle (by omega)
    · cases hr
  · intro x hx
    rw [AxisRange.has_iff_bounds a hx, AxisRange.has_iff_bounds b hx]
    split
    · next hle =>
      constructor
      · rintro ⟨r, h, hr⟩
        rw [← Option.some.inj h, rangeOfBounds_has hx] at hr
        omega
      · intro h
        exact ⟨_, rfl, (rangeOfBounds_has hx).2 (by omega)⟩
    · next hle =>
      constructor
      · rintro ⟨r, h, -⟩; cases h
      · intro h; omega

/-- `intersect_axis_ranges` keeps the coordinates common to both. -/
theorem meetRange_spec {a b : AxisRange} (ha : a.Ok) (hb : b.Ok) :
    (∀ r, meetRange a b = some r → r.Ok) ∧ ∀ x, x ≤ u32Max →
      ((∃ r, meetRange a b = some r ∧ r.Has x) ↔ a.Has x ∧ b.Has x) := by
  have hb' := meetBounds_spec ha hb
  have key : ∀ c : AxisRange, c.Ok → meetRange a b = some (normRange c) →
      (∀ x, x ≤ u32Max → (c.Has x ↔ a.Has x ∧ b.Has x)) → (∀ r, meetRange a b = some r → r.Ok) ∧ ∀ x, x ≤ u32Max →
      ((∃ r, meetRange a b = some r ∧ r.Has x) ↔ a.Has x ∧ b.Has x) := by
    intro c hc he h
    rw [he]
    refine ⟨fun r hr => by rw [← Option.some.inj hr]; exact normRange_ok hc, fun x hx => ?_⟩
    rw [← h x hx, ← normRange_has hx]
    constructor
    · rintro ⟨r, hr, h'⟩; rw [Option.some.inj hr]; exact h'
    · intro h'; exact ⟨_, rfl, h'⟩
  cases a with
  | all => exact key b hb rfl fun x _ => by simp [AxisRange.Has]
  | from_ s =>
    cases b with
    | all => exact key (.from_ s) ha rfl fun x _ => by simp [AxisRange.Has]
    | from_ s' =>
      exact key (.from_ (max s s')) (by simp only [AxisRange.Ok] at *; omega) rfl fun x _ => by
        simp only [AxisRange.Has]; omega
    | _ => exact hb'
  | to e =>
    cases b with
    | all => exact key (.to e) ha rfl fun x _ => by simp [AxisRange.Has]
    | to e' =>
      exact key (.to (min e e')) (by simp only [AxisRange.Ok] at *; omega) rfl fun x _ => by
        simp only [AxisRange.Has]; omega
    | _ => exact hb'
  | point p =>
    cases b with
    | all => exact key (.point p) ha rfl fun x _ => by simp [AxisRange.Has]
    | _ => exact hb'
  | span s e =>
    cases b with
    | all => exact key (.span s e) ha rfl fun x _ => by simp [AxisRange.Has]
    | _ => exact hb'

/-- An offset that takes some coordinate to a coordinate. -/
def SmallOffset (o : Int) : Prop := -(u32Max : Int) ≤ o ∧ o ≤ u32Max

theorem addOffset_eq {v : Nat} {o : Int} {w : Nat} (h : addOffset v o = some w) : (w : Int) = v + o ∧ w ≤ u32Max := by
  unfold addOffset at h
  split at h
  · cases h
  · split at h
    · next h2 => rw [← Option.some.inj h]; omega
    · cases h

theorem addOffset_some {v w : Nat} {o : Int} (h : (w : Int) = v + o) (hw : w ≤ u32Max) : addOffset v o = some w := by
  unfold addOffset
  rw [← h, if_neg (by unfold i64Min i64Max u32Max at *; omega), if_pos (by omega)]
  simp

theorem SmallOffset.of_add {v w : Nat} {o : Int} (hv : v ≤ u32Max) (h : addOffset v o = some w) : SmallOffset o := by
  have := addOffset_eq h
  unfold SmallOffset
  omega

theorem SmallOffset.neg {o : Int} (h : SmallOffset o) : SmallOffset (-o) := by
  unfold SmallOffset at *; omega

theorem checkedNeg_small {o : Int} (h : SmallOffset o) : checkedNeg o = some (-o) := by
  unfold checkedNeg
  rw [if_neg]
  unfold SmallOffset i64Min u32Max at *
  omega

theorem shiftClip_small {v : Nat} {o : Int} (hv : v ≤ u32Max) (h : SmallOffset o) : shiftClip v o = v + o := by
  unfold shiftClip
  rw [if_neg]
  unfold SmallOffset i64Min i64Max u32Max at *
  omega

theorem rangeOfShifted_spec (lo hi : Int) :
    (∀ r, rangeOfShifted lo hi = some r → r.Ok) ∧ ∀ x : Nat, x ≤ u32Max →
      ((∃ r, rangeOfShifted lo hi = some r ∧ r.Has x) ↔ lo ≤ x ∧ x ≤ hi) := by
  have h1 := clampU32_eq lo
  have h2 := clampU32_eq hi
  unfold rangeOfShifted
  constructor
  · intro r hr
    split at hr
    · cases hr
    · rw [← Option.some.inj hr]
      exact rangeOfBounds_ok (by omega) (by omega)
  · intro x hx
    split
    · constructor
      · rintro ⟨r, h, -⟩; cases h
      · intro h; omega
    · constructor
      · rintro ⟨r, h, hr⟩
        rw [← Option.some.inj h, rangeOfBounds_has hx] at hr
        omega
      · intro h
        exact ⟨_, rfl, (rangeOfBounds_has hx).2 (by omega)⟩

/-- Shifting a range: the coordinates whose preimage is in the range.  An open range that is shifted past the last
coordinate keeps that coordinate, hence the condition on `x` for the direction that matters less. -/
theorem shiftRange_spec {r : AxisRange} (hr : r.Ok) {o : Int} (ho : SmallOffset o) :
    (∀ r', shiftRange r o = some r' → r'.Ok) ∧ ∀ x y : Nat, x ≤ u32Max → y ≤ u32Max → (x : Int) = y + o →
      (r.Has y → ∃ r', shiftRange r o = some r' ∧ r'.Has x) ∧
      (x < u32Max → (∃ r', shiftRange r o = some r' ∧ r'.Has x) → r.Has y) := by
  cases r with
  | point p =>
    simp only [shiftRange, has_point, has_span, has_from, has_to]
    constructor
    · intro r' h
      cases ha : addOffset p o with
      | none => rw [ha] at h; cases h
      | some w => rw [ha] at h; rw [← Option.some.inj h]; exact (addOffset_eq ha).2
    · intro x y hx hy he
      constructor
      · rintro rfl
        exact ⟨.point x, by rw [addOffset_some he hx]; rfl, rfl⟩
      · rintro - ⟨r', h, hr'⟩
        cases ha : addOffset p o with
        | none => rw [ha] at h; cases h
        | some w =>
          rw [ha] at h
          rw [← Option.some.inj h] at hr'
          simp only [AxisRange.Has] at hr'
          have := addOffset_eq ha
          omega
  | span s e =>
    simp only [AxisRange.Ok] at hr
    simp only [shiftRange, has_point, has_span, has_from, has_to]
    rw [shiftClip_small (by omega) ho, shiftClip_small hr.2 ho]
    have h := rangeOfShifted_spec (s + o) (e + o)
    refine ⟨h.1, fun x y hx hy he => ?_⟩
    rw [h.2 x hx]
    omega
  | from_ s =>
    simp only [AxisRange.Ok] at hr
    simp only [shiftRange, has_point, has_span, has_from, has_to]
    rw [shiftClip_small hr ho]
    have hc := clampU32_eq (s + o)
    constructor
    · intro r' h
      split at h
      · rw [← Option.some.inj h]; trivial
      · rw [← Option.some.inj h]; exact normRange_ok (by simp only [AxisRange.Ok]; omega)
    · intro x y hx hy he
      split
      · exact ⟨fun _ => ⟨_, rfl, trivial⟩, fun _ _ => by omega⟩
      · constructor
        · intro h
          exact ⟨_, rfl, by rw [normRange_has hx]; simp only [AxisRange.Has]; omega⟩
        · rintro hlt ⟨r', h, hr'⟩
          rw [← Option.some.inj h, normRange_has hx] at hr'
          simp only [AxisRange.Has] at hr'
          omega
  | to e =>
    simp only [AxisRange.Ok] at hr
    simp only [shiftRange, has_point, has_span, has_from, has_to]
    rw [shiftClip_small hr ho]
    have hc := clampU32_eq (e + o)
    constructor
    · intro r' h
      split at h
      · cases h
      · rw [← Option.some.inj h]; exact normRange_ok (by simp only [AxisRange.Ok]; omega)
    · intro x y hx hy he
      split
      · constructor
        · intro h; omega
        · rintro - ⟨r', h, -⟩; cases h
      · constructor
        · intro h
          exact ⟨_, rfl, by rw [normRange_has hx]; simp only [AxisRange.Has]; omega⟩
        · rintro - ⟨r', h, hr'⟩
          rw [← Option.some.inj h, normRange_has hx] at hr'
          simp only [AxisRange.Has] at hr'
          omega
  | all =>
    simp only [shiftRange]
    refine ⟨fun r' h => by rw [← Option.some.inj h]; trivial, fun x y _ _ _ => ?_⟩
    exact ⟨fun _ => ⟨_, rfl, trivial⟩, fun _ _ => trivial⟩

/-! ### One axis -/

/-- What a projection of one axis must do: it does not fail; what it marks lies in the result; it marks a coordinate of
the result that reads what changed; and it marks no other one (the last coordinate of all left aside). -/
structure AxisGood (out : Option (Option AxisRange)) (result : AxisRange) (reads : Nat → Prop) : Prop where
  ok : ∃ d, out = some d
  okRange : ∀ r, out = some (some r) → r.Ok
  inside : ∀ r x, x ≤ u32Max → out = some (some r) → r.Has x → result.Has x
  marks : ∀ x, x ≤ u32Max → result.Has x → reads x → ∃ r, out = some (some r) ∧ r.Has x
  only : ∀ r x, x < u32Max → out = some (some r) → r.Has x → reads x

/-- The axis of the result is an interval of coordinates. -/
theorem boundedOf_spec {r : AxisRange} {lo hi : Nat} (h : boundedOf r = some (lo, hi)) (hr : r.Ok) :
    lo ≤ hi ∧ hi ≤ u32Max ∧ r.Has lo ∧ r.Has hi ∧ ∀ x, r.Has x ↔ lo ≤ x ∧ x ≤ hi := by
  cases r with
  | point p =>
    simp only [boundedOf, Option.some.injEq, Prod.mk.injEq] at h
    obtain ⟨rfl, rfl⟩ := h
    exact ⟨Nat.le_refl _, hr, rfl, rfl, fun x => by rw [has_point]; omega⟩
  | span s e =>
    simp only [boundedOf, Option.some.injEq, Prod.mk.injEq] at h
    obtain ⟨rfl, rfl⟩ := h
    exact ⟨hr.1, hr.2, ⟨Nat.le_refl _, hr.1⟩, ⟨hr.1, Nat.le_refl _⟩, fun x => Iff.rfl⟩
  | _ => simp [boundedOf] at h

theorem sourceExtent_spec {a : AxisProj} {lo hi : Nat} {e : Nat × Nat} (h : a.sourceExtent lo hi = some e)
    (ha : ∀ i, a = .abs i → i ≤ u32Max) (hle : lo ≤ hi) :
    e.1 ≤ e.2 ∧ e.2 ≤ u32Max ∧ (∀ x, lo ≤ x → x ≤ hi → (e.1 : Int) ≤ a.at_ x ∧ a.at_ x ≤ e.2) ∧
      ((e.1 : Int) = a.at_ lo ∧ (e.2 : Int) = a.at_ hi) := by
  cases a with
  | rel o =>
    simp only [AxisProj.sourceExtent] at h
    cases h1 : addOffset lo o with
    | none => rw [h1] at h; cases h
    | some l =>
      rw [h1] at h
      cases h2 : addOffset hi o with
      | none => rw [h2] at h; cases h
      | some u =>
        rw [h2] at h
        rw [← Option.some.inj h]
        have e1 := addOffset_eq h1
        have e2 := addOffset_eq h2
        simp only [AxisProj.at_]
        refine ⟨by omega, by omega, fun x _ _ => ⟨?_, ?_⟩, e1.1, e2.1⟩
        · omega
        · omega
  | abs i =>
    simp only [AxisProj.sourceExtent] at h
    rw [← Option.some.inj h]
    simp only [AxisProj.at_]
    exact ⟨Nat.le_refl _, ha i rfl, fun x _ _ => ⟨Int.le_refl _, Int.le_refl _⟩, trivial, trivial⟩

theorem clip_good {out : Option (Option AxisRange)} {result : AxisRange} {reads : Nat → Prop} (hr : result.Ok)
    (h1 : ∃ d, out = some d) (h2 : ∀ r, out = some (some r) → r.Ok)
    (h3 : ∀ x, x ≤ u32Max → result.Has x → reads x → ∃ r, out = some (some r) ∧ r.Has x)
    (h4 : ∀ r x, x < u32Max → out = some (some r) → r.Has x → result.Has x → reads x) :
    AxisGood (clip out result) result reads := by
  obtain ⟨d, rfl⟩ := h1
  cases d with
  | none =>
    refine ⟨⟨_, rfl⟩, by simp [clip], by simp [clip], fun x hx hx' hr' => ?_, by simp [clip]⟩
    obtain ⟨r, h, -⟩ := h3 x hx hx' hr'
    cases h
  | some d =>
    have hd := h2 d rfl
    have hm := meetRange_spec hd hr
    have e : clip (some (some d)) result = some (meetRange d result) := rfl
    rw [e]
    constructor
    · exact ⟨_, rfl⟩
    · intro r h; exact hm.1 r (Option.some.inj h)
    · intro r x hx h hh; exact ((hm.2 x hx).1 ⟨r, Option.some.inj h, hh⟩).2
    · intro x hx hx' hr'
      obtain ⟨r, h, hh⟩ := h3 x hx hx' hr'
      obtain rfl := Option.some.inj (Option.some.inj h)
      obtain ⟨r', h', hh'⟩ := (hm.2 x hx).2 ⟨hh, hx'⟩
      exact ⟨r', by rw [h'], hh'⟩
    · intro r x hx h hh
      have := (hm.2 x (by omega)).1 ⟨r, Option.some.inj h, hh⟩
      exact h4 d x hx rfl this.1 this.2

theorem projectChanged_clip (o : Int) (changed result : AxisRange) : AxisProj.projectChanged (.rel o) changed result =
    clip ((checkedNeg o).map fun n => shiftRange changed n) result := by
  simp only [AxisProj.projectChanged, clip]
  cases checkedNeg o with
  | none => rfl
  | some n =>
    simp only [Option.map_some]
    cases shiftRange changed n <;> rfl

/-- One axis of a single-cell reference. -/
theorem projectChanged_good {a : AxisProj} {changed result : AxisRange} (hc : changed.Ok) (hr : result.Ok) {lo hi : Nat}
    (hb : boundedOf result = some (lo, hi)) {e : Nat × Nat} (he : a.sourceExtent lo hi = some e)
    (ha : ∀ i, a = .abs i → i ≤ u32Max) :
    AxisGood (a.projectChanged changed result) result
      (fun p => ∃ k : Nat, k ≤ u32Max ∧ changed.Has k ∧ (k : Int) = a.at_ p) := by
  obtain ⟨b1, b2, b3, b4, b5⟩ := boundedOf_spec hb hr
  obtain ⟨s1, s2, s3, s4⟩ := sourceExtent_spec he ha b1
  cases a with
  | abs i =>
    have hi' := ha i rfl
    simp only [AxisProj.projectChanged]
    by_cases hi2 : changed.contains i = true
    · rw [if_pos hi2]
      refine ⟨⟨_, rfl⟩, fun r h => ?_, fun r x _ h hh => ?_, fun x _ hx _ => ⟨result, rfl, hx⟩, fun r x _ h hh => ?_⟩
      · rw [← Option.some.inj (Option.some.inj h)]; exact hr
      · rw [Option.some.inj (Option.some.inj h)]; exact hh
      · exact ⟨i, hi', (AxisRange.contains_iff _ _).1 hi2, rfl⟩
    · rw [if_neg hi2]
      refine ⟨⟨_, rfl⟩, by simp, by simp, fun x _ _ hx => ?_, by simp⟩
      obtain ⟨k, -, h1, h2⟩ := hx
      simp only [AxisProj.at_] at h2
      have : k = i := by omega
      subst this
      exact absurd ((AxisRange.contains_iff _ _).2 h1) hi2
  | rel o =>
    have hs : SmallOffset o := by
      simp only [AxisProj.at_] at s4
      unfold SmallOffset
      omega
    rw [projectChanged_clip, checkedNeg_small hs, Option.map_some]
    have h := shiftRange_spec hc hs.neg
    refine clip_good hr ⟨_, rfl⟩ (fun r hh => h.1 r (Option.some.inj hh)) ?_ ?_
    · rintro x hx - ⟨k, hk, h1, h2⟩
      simp only [AxisProj.at_] at h2
      obtain ⟨r, h3, h4⟩ := (h.2 x k hx hk (by omega)).1 h1
      exact ⟨r, by rw [h3], h4⟩
    · rintro r x hx h1 h2 h3
      have h3' := (b5 x).1 h3
      have h4 := s3 x h3'.1 h3'.2
      simp only [AxisProj.at_] at h4
      refine ⟨((x : Int) + o).toNat, by omega, (h.2 x _ (by omega) (by omega) (by omega)).2 hx
        ⟨r, Option.some.inj h1, h2⟩, by simp only [AxisProj.at_]; omega⟩

theorem changed_between {changed : AxisRange} (hc : changed.Ok) {lo hi : Int} (hlo : 0 ≤ lo) (hhi : hi ≤ u32Max)
    (hle : lo ≤ hi) : (∃ k : Nat, k ≤ u32Max ∧ changed.Has k ∧ lo ≤ k ∧ (k : Int) ≤ hi) ↔
      (changed.bounds.1 : Int) ≤ hi ∧ lo ≤ changed.bounds.2 := by
  have hb := AxisRange.bounds_ok hc
  constructor
  · rintro ⟨k, hk, h1, h2, h3⟩
    rw [AxisRange.has_iff_bounds _ hk] at h1
    omega
  · intro h
    refine ⟨(max lo changed.bounds.1).toNat, by omega, ?_, by omega, by omega⟩
    rw [AxisRange.has_iff_bounds _ (by omega)]
    omega

theorem between_iff (a b x : Int) : Between a b x ↔ min a b ≤ x ∧ x ≤ max a b := by
  unfold Between; omega

theorem from_ok (c : AxisRange) (hc : c.Ok) : (AxisRange.from_ c.bounds.1).Ok := by
  have := AxisRange.bounds_ok hc
  simp only [AxisRange.Ok]; omega

theorem to_ok (c : AxisRange) (hc : c.Ok) : (AxisRange.to c.bounds.2).Ok := by
  have := AxisRange.bounds_ok hc
  simp only [AxisRange.Ok]; omega

/-- The projection through one relative and one absolute bound. -/
theorem changedMixed_good {o : Int} {i : Nat} {changed result : AxisRange} (hc : changed.Ok) (hr : result.Ok)
    (hs : SmallOffset o) (hi : i ≤ u32Max)
    (hin : ∀ x, result.Has x → x ≤ u32Max → 0 ≤ (x : Int) + o ∧ (x : Int) + o ≤ u32Max) :
    AxisGood (clip (changedMixed o i changed) result) result
      (fun p => ∃ k : Nat, k ≤ u32Max ∧ changed.Has k ∧ Between (p + o) i k) := by
  have hb := AxisRange.bounds_ok hc
  have hreads : ∀ x : Nat, result.Has x → x ≤ u32Max → ((∃ k : Nat, k ≤ u32Max ∧ changed.Has k ∧ Between (x + o) i k) ↔
      (changed.bounds.1 : Int) ≤ max (x + o) i ∧ min (x + o) i ≤ (changed.bounds.2 : Int)) := by
    intro x hx hx'
    have := hin x hx hx'
    rw [← changed_between hc (by omega) (by omega) (by omega)]
    simp only [between_iff]
  unfold changedMixed
  rw [checkedNeg_small hs]
  dsimp only
  have hF := shiftRange_spec (from_ok _ hc) hs.neg
  have hT := shiftRange_spec (to_ok _ hc) hs.neg
  by_cases c1 : changed.bounds.1 ≤ i ∧ i ≤ changed.bounds.2
  · rw [if_pos c1]
    refine clip_good hr ⟨_, rfl⟩ (fun r h => ?_) (fun x _ _ _ => ⟨_, rfl, trivial⟩) ?_
    · rw [← Option.some.inj (Option.some.inj h)]; trivial
    · intro r x hx _ _ hx'
      rw [hreads x hx' (by omega)]
      omega
  · rw [if_neg c1]
    by_cases c2 : i < changed.bounds.1
    · rw [if_pos c2]
      refine clip_good hr ⟨_, rfl⟩ (fun r h => hF.1 r (Option.some.inj h)) ?_ ?_
      · intro x hx hx' hrd
        rw [hreads x hx' hx] at hrd
        have := hin x hx' hx
        obtain ⟨r, h3, h4⟩ := (hF.2 x ((x : Int) + o).toNat hx (by omega) (by omega)).1
          (by simp only [AxisRange.Has]; omega)
        exact ⟨r, by rw [h3], h4⟩
      · intro r x hx h1 h2 hx'
        have := hin x hx' (by omega)
        have h3 := (hF.2 x ((x : Int) + o).toNat (by omega) (by omega) (by omega)).2 hx ⟨r, Option.some.inj h1, h2⟩
        rw [hreads x hx' (by omega)]
        simp only [AxisRange.Has] at h3
        omega
    · rw [if_neg c2]
      refine clip_good hr ⟨_, rfl⟩ (fun r h => hT.1 r (Option.some.inj h)) ?_ ?_
      · intro x hx hx' hrd
        rw [hreads x hx' hx] at hrd
        have := hin x hx' hx
        obtain ⟨r, h3, h4⟩ := (hT.2 x ((x : Int) + o).toNat hx (by omega) (by omega)).1
          (by simp only [AxisRange.Has]; omega)
        exact ⟨r, by rw [h3], h4⟩
      · intro r x hx h1 h2 hx'
        have := hin x hx' (by omega)
        have h3 := (hT.2 x ((x : Int) + o).toNat (by omega) (by omega) (by omega)).2 hx ⟨r, Option.some.inj h1, h2⟩
        rw [hreads x hx' (by omega)]
        simp only [AxisRange.Has] at h3
        omega

/-- The projection through two relative bounds. -/
theorem changedRelRel_good {so eo : Int} {changed result : AxisRange} (hc : changed.Ok) (hr : result.Ok)
    (hs1 : SmallOffset so) (hs2 : SmallOffset eo)
    (hin : ∀ x, result.Has x → x ≤ u32Max → (0 ≤ (x : Int) + so ∧ (x : Int) + so ≤ u32Max) ∧
      0 ≤ (x : Int) + eo ∧ (x : Int) + eo ≤ u32Max) :
    AxisGood (clip (changedRelRel so eo changed) result) result
      (fun p => ∃ k : Nat, k ≤ u32Max ∧ changed.Has k ∧ Between (p + so) (p + eo) k) := by
  have hb := AxisRange.bounds_ok hc
  have hreads : ∀ x : Nat, result.Has x → x ≤ u32Max →
      ((∃ k : Nat, k ≤ u32Max ∧ changed.Has k ∧ Between (x + so) (x + eo) k) ↔
      (changed.bounds.1 : Int) ≤ x + max so eo ∧ x + min so eo ≤ (changed.bounds.2 : Int)) := by
    intro x hx hx'
    have := hin x hx hx'
    rw [← changed_between hc (by omega) (by omega) (by omega)]
    simp only [between_iff]
    constructor <;> rintro ⟨k, h1, h2, h3, h4⟩ <;> exact ⟨k, h1, h2, by omega, by omega⟩
  have hmax : SmallOffset (max so eo) := by unfold SmallOffset at *; omega
  have hmin : SmallOffset (min so eo) := by unfold SmallOffset at *; omega
  have interval : ∀ s e : Nat, s ≤ e → e ≤ u32Max → changed.bounds = (s, e) →
      AxisGood (clip (shiftInterval s e (max so eo) (min so eo)) result) result
      (fun p => ∃ k : Nat, k ≤ u32Max ∧ changed.Has k ∧ Between (p + so) (p + eo) k) := by
    intro s e hse he hbe
    unfold shiftInterval
    rw [checkedNeg_small hmax, checkedNeg_small hmin]
    dsimp only
    rw [shiftClip_small (by omega) hmax.neg, shiftClip_small he hmin.neg]
    have h := rangeOfShifted_spec (s + -max so eo) (e + -min so eo)
    refine clip_good hr ⟨_, rfl⟩ (fun r hh => h.1 r (Option.some.inj hh)) ?_ ?_
    · intro x hx hx' hrd
      rw [hreads x hx' hx, hbe] at hrd
      obtain ⟨r, h3, h4⟩ := (h.2 x hx).2 (by omega)
      exact ⟨r, by rw [h3], h4⟩
    · intro r x hx h1 h2 hx'
      have h3 := (h.2 x (by omega)).1 ⟨r, Option.some.inj h1, h2⟩
      rw [hreads x hx' (by omega), hbe]
      dsimp only
      omega
  cases changed with
  | point p => exact interval p p (Nat.le_refl _) hc rfl
  | span s e => exact interval s e hc.1 hc.2 rfl
  | from_ s =>
    simp only [changedRelRel]
    rw [checkedNeg_small hmax, Option.map_some]
    have h := shiftRange_spec (r := .from_ s) hc hmax.neg
    refine clip_good hr ⟨_, rfl⟩ (fun r hh => h.1 r (Option.some.inj hh)) ?_ ?_
    · intro x hx hx' hrd
      rw [hreads x hx' hx] at hrd
      have := hin x hx' hx
      obtain ⟨r, h3, h4⟩ := (h.2 x ((x : Int) + max so eo).toNat hx (by omega) (by omega)).1
        (by simp only [AxisRange.Has, AxisRange.bounds] at *; omega)
      exact ⟨r, by rw [h3], h4⟩
    · intro r x hx h1 h2 hx'
      have := hin x hx' (by omega)
      have h3 := (h.2 x ((x : Int) + max so eo).toNat (by omega) (by omega) (by omega)).2 hx
        ⟨r, Option.some.inj h1, h2⟩
      rw [hreads x hx' (by omega)]
      simp only [AxisRange.Has, AxisRange.bounds] at *
      omega
  | to e =>
    simp only [changedRelRel]
    rw [checkedNeg_small hmin, Option.map_some]
    have h := shiftRange_spec (r := .to e) hc hmin.neg
    refine clip_good hr ⟨_, rfl⟩ (fun r hh => h.1 r (Option.some.inj hh)) ?_ ?_
    · intro x hx hx' hrd
      rw [hreads x hx' hx] at hrd
      have := hin x hx' hx
      obtain ⟨r, h3, h4⟩ := (h.2 x ((x : Int) + min so eo).toNat hx (by omega) (by omega)).1
        (by simp only [AxisRange.Has, AxisRange.bounds] at *; omega)
      exact ⟨r, by rw [h3], h4⟩
    · intro r x hx h1 h2 hx'
      have := hin x hx' (by omega)
      have h3 := (h.2 x ((x : Int) + min so eo).toNat (by omega) (by omega) (by omega)).2 hx
        ⟨r, Option.some.inj h1, h2⟩
      rw [hreads x hx' (by omega)]
      simp only [AxisRange.Has, AxisRange.bounds] at *
      omega
  | all =>
    simp only [changedRelRel]
    refine clip_good hr ⟨_, rfl⟩ (fun r h => ?_) (fun x _ _ _ => ⟨_, rfl, trivial⟩) ?_
    · rw [← Option.some.inj (Option.some.inj h)]; trivial
    · intro r x hx _ _ hx'
      have := hin x hx' (by omega)
      rw [hreads x hx' (by omega)]
      simp only [AxisRange.bounds]
      omega

/-- One axis of a range reference. -/
theorem rangeProjectChanged_good {s e : AxisProj} {changed result : AxisRange} (hc : changed.Ok) (hr : result.Ok)
    {lo hi : Nat} (hb : boundedOf result = some (lo, hi)) {x : Nat × Nat} (hx : rangeSourceExtent s e lo hi = some x)
    (hs : ∀ i, s = .abs i → i ≤ u32Max) (he : ∀ i, e = .abs i → i ≤ u32Max) :
    AxisGood (rangeProjectChanged s e changed result) result
      (fun p => ∃ k : Nat, k ≤ u32Max ∧ changed.Has k ∧ Between (s.at_ p) (e.at_ p) k) := by
  obtain ⟨b1, b2, b3, b4, b5⟩ := boundedOf_spec hb hr
  unfold rangeSourceExtent at hx
  cases hse : s.sourceExtent lo hi with
  | none => rw [hse] at hx; cases hx
  | some es =>
    rw [hse] at hx
    cases hee : e.sourceExtent lo hi with
    | none => rw [hee] at hx; cases hx
    | some ee =>
      have S := sourceExtent_spec hse hs b1
      have E := sourceExtent_spec hee he b1
      clear hx
      have small : ∀ o : Int, ∀ w : Nat × Nat, w.1 ≤ w.2 → w.2 ≤ u32Max → (w.1 : Int) = (lo : Int) + o → SmallOffset o := by
        intro o w h1 h2 h3
        unfold SmallOffset
        omega
      cases s with
      | rel so =>
        have s1 := small so es S.1 S.2.1 S.2.2.2.1
        cases e with
        | rel eo =>
          have s2 := small eo ee E.1 E.2.1 E.2.2.2.1
          refine changedRelRel_good hc hr s1 s2 fun y hy _ => ?_
          have hy := (b5 y).1 hy
          have q1 := S.2.2.1 y hy.1 hy.2
          have q2 := E.2.2.1 y hy.1 hy.2
          simp only [AxisProj.at_] at q1 q2
          have := S.2.1
          have := E.2.1
          omega
        | abs i =>
          refine changedMixed_good hc hr s1 (he i rfl) fun y hy _ => ?_
          have hy := (b5 y).1 hy
          have q1 := S.2.2.1 y hy.1 hy.2
          simp only [AxisProj.at_] at q1
          have := S.2.1
          omega
      | abs i =>
        cases e with
        | rel eo =>
          have s2 := small eo ee E.1 E.2.1 E.2.2.2.1
          have g := changedMixed_good hc hr s2 (hs i rfl) (result := result) (changed := changed) fun y hy _ => by
            have hy := (b5 y).1 hy
            have q2 := E.2.2.1 y hy.1 hy.2
            simp only [AxisProj.at_] at q2
            have := E.2.1
            omega
          have hcomm : (fun p : Nat => ∃ k : Nat, k ≤ u32Max ∧ changed.Has k ∧ Between (p + eo) i k) =
              (fun p : Nat => ∃ k : Nat, k ≤ u32Max ∧ changed.Has k ∧
                Between ((AxisProj.abs i).at_ p) ((AxisProj.rel eo).at_ p) k) := by
            funext p
            simp only [AxisProj.at_, between_iff]
            refine propext ?_
            constructor <;> rintro ⟨k, h1, h2, h3⟩ <;> exact ⟨k, h1, h2, by omega⟩
          rw [← hcomm]
          exact g
        | abs j =>
          have hi' := hs i rfl
          have hj := he j rfl
          simp only [rangeProjectChanged]
          have hok : (AxisRange.span (min i j) (max i j)).Ok := by simp only [AxisRange.Ok]; omega
          have hrd : ∀ p : Nat, ((AxisRange.span (min i j) (max i j)).intersects changed = true ↔
              ∃ k : Nat, k ≤ u32Max ∧ changed.Has k ∧
                Between ((AxisProj.abs i).at_ p) ((AxisProj.abs j).at_ p) k) := by
            intro p
            rw [AxisRange.intersects_iff hok hc]
            simp only [AxisProj.at_, between_iff, AxisRange.Has]
            constructor
            · rintro ⟨k, h1, h2, h3⟩; exact ⟨k, h1, h3, by omega⟩
            · rintro ⟨k, h1, h2, h3⟩; exact ⟨k, h1, by omega, h2⟩
          by_cases hi2 : (AxisRange.span (min i j) (max i j)).intersects changed = true
          · rw [if_pos hi2]
            refine ⟨⟨_, rfl⟩, fun r h => ?_, fun r y _ h hh => ?_, fun y _ hy _ => ⟨result, rfl, hy⟩, fun r y _ h hh => ?_⟩
            · rw [← Option.some.inj (Option.some.inj h)]; exact hr
            · rw [Option.some.inj (Option.some.inj h)]; exact hh
            · exact (hrd y).1 hi2
          · rw [if_neg hi2]
            exact ⟨⟨_, rfl⟩, by simp, by simp, fun y _ _ hy => absurd ((hrd y).2 hy) hi2, by simp⟩

/-! ### Regions -/

theorem regionOfExtents_has (sheet : Nat) (a b : Nat × Nat) (k : Key) :
    (regionOfExtents sheet a b).Has k ↔ k.sheet = sheet ∧ (a.1 ≤ k.row ∧ k.row ≤ a.2) ∧ b.1 ≤ k.col ∧ k.col ≤ b.2 := by
  unfold regionOfExtents Region.Has
  have h : ∀ (a : Nat × Nat) (x : Nat), (if a.1 = a.2 then AxisRange.point a.1 else .span a.1 a.2).Has x ↔
      a.1 ≤ x ∧ x ≤ a.2 := by
    intro a x
    split
    · rw [has_point]; omega
    · rfl
  rw [h, h]

theorem regionOfExtents_ok {sheet : Nat} {a b : Nat × Nat} (h1 : a.1 ≤ a.2) (h2 : a.2 ≤ u32Max) (h3 : b.1 ≤ b.2)
    (h4 : b.2 ≤ u32Max) : (regionOfExtents sheet a b).Ok := by
  unfold regionOfExtents Region.Ok
  dsimp only
  constructor
  · split
    · simp only [AxisRange.Ok]; omega
    · exact ⟨h1, h2⟩
  · split
    · simp only [AxisRange.Ok]; omega
    · exact ⟨h3, h4⟩

theorem regionOfRanges_spec {sheet : Nat} {rows cols : AxisRange} (hr : rows.Ok) (hc : cols.Ok) :
    (regionOfRanges sheet rows cols).Ok ∧ ∀ k : Key, k.Fits →
      ((regionOfRanges sheet rows cols).Has k ↔ k.sheet = sheet ∧ rows.Has k.row ∧ cols.Has k.col) := by
  have b1 := AxisRange.bounds_ok hr
  have b2 := AxisRange.bounds_ok hc
  unfold regionOfRanges
  split
  case h_10 =>
    refine ⟨regionOfExtents_ok b1.1 b1.2 b2.1 b2.2, fun k hk => ?_⟩
    rw [regionOfExtents_has, AxisRange.has_iff_bounds _ hk.1, AxisRange.has_iff_bounds _ hk.2]
  all_goals exact ⟨⟨hr, hc⟩, fun k _ => Iff.rfl⟩

theorem domOfRegion_has (r result : Region) (k : Key) : (domOfRegion r).Has result k ↔ r.Has k := by
  unfold domOfRegion
  cases h : r.asPoint with
  | none => simp [Dom.Has]
  | some k' =>
    rw [Region.asPoint_some h, Region.point_has]
    simp only [Dom.Has, List.mem_singleton]

theorem projectAxes_spec {result : Region} {rows cols : Option (Option AxisRange)} {R C : Nat → Prop}
    (hr : AxisGood rows result.rows R) (hc : AxisGood cols result.cols C) :
    (∃ d, projectAxes result.sheet rows cols true = .exact_ d) ∨
      projectAxes result.sheet rows cols true = .noIntersection := by
  obtain ⟨r, rfl⟩ := hr.ok
  obtain ⟨c, rfl⟩ := hc.ok
  cases r <;> cases c <;> simp [projectAxes, projectionOfRanges]

theorem projectAxes_marks {result : Region} {rows cols : Option (Option AxisRange)} {R C : Nat → Prop}
    (hr : AxisGood rows result.rows R) (hc : AxisGood cols result.cols C) {k : Key} (hk : k.Fits) :
    ((projectAxes result.sheet rows cols true).Marks result k → result.Has k) ∧
      (result.Has k → R k.row → C k.col → (projectAxes result.sheet rows cols true).Marks result k) ∧
      (k.row < u32Max → k.col < u32Max → (projectAxes result.sheet rows cols true).Marks result k →
        R k.row ∧ C k.col) := by
  obtain ⟨r, h1⟩ := hr.ok
  obtain ⟨c, h2⟩ := hc.ok
  cases r with
  | none =>
    rw [h1]
    refine ⟨False.elim, fun h3 h4 _ => ?_, fun _ _ => False.elim⟩
    obtain ⟨r, h5, -⟩ := hr.marks _ hk.1 h3.2.1 h4
    rw [h1] at h5
    cases h5
  | some r =>
    cases c with
    | none =>
      rw [h1, h2]
      refine ⟨False.elim, fun h3 _ h4 => ?_, fun _ _ => False.elim⟩
      obtain ⟨c, h5, -⟩ := hc.marks _ hk.2 h3.2.2 h4
      rw [h2] at h5
      cases h5
    | some c =>
      have e : (projectAxes result.sheet rows cols true).Marks result k ↔
          k.sheet = result.sheet ∧ r.Has k.row ∧ c.Has k.col := by
        rw [h1, h2]
        simp only [projectAxes, projectionOfRanges, Projection.Marks]
        rw [if_neg (by simp)]
        rw [← (regionOfRanges_spec (sheet := result.sheet) (hr.okRange r h1) (hc.okRange c h2)).2 k hk]
        exact domOfRegion_has _ _ _
      rw [e]
      refine ⟨?_, ?_, ?_⟩
      · rintro ⟨h3, h4, h5⟩
        exact ⟨h3, hr.inside r _ hk.1 h1 h4, hc.inside c _ hk.2 h2 h5⟩
      · intro h3 h4 h5
        obtain ⟨r', h6, h7⟩ := hr.marks _ hk.1 h3.2.1 h4
        obtain ⟨c', h8, h9⟩ := hc.marks _ hk.2 h3.2.2 h5
        rw [h1] at h6
        rw [h2] at h8
        obtain rfl := Option.some.inj (Option.some.inj h6)
        obtain rfl := Option.some.inj (Option.some.inj h8)
        exact ⟨h3.1, h7, h9⟩
      · rintro h3 h4 ⟨-, h5, h6⟩
        exact ⟨hr.only r _ h3 h1 h5, hc.only c _ h4 h2 h6⟩

/-- The absolute indexes of a rule are `u32`. -/
def Rule.Fits (rule : Rule) : Prop :=
  match rule with
  | .cell r c => (∀ i, r = .abs i → i ≤ u32Max) ∧ ∀ i, c = .abs i → i ≤ u32Max
  | .range rs re cs ce => (∀ i, rs = .abs i → i ≤ u32Max) ∧ (∀ i, re = .abs i → i ≤ u32Max) ∧
      (∀ i, cs = .abs i → i ≤ u32Max) ∧ ∀ i, ce = .abs i → i ≤ u32Max
  | .wholeCols cs ce => (∀ i, cs = .abs i → i ≤ u32Max) ∧ ∀ i, ce = .abs i → i ≤ u32Max
  | .wholeResult => True

theorem boundedExtents_eq {r : Region} {e : (Nat × Nat) × (Nat × Nat)} (h : boundedExtents r = some e) :
    boundedOf r.rows = some e.1 ∧ boundedOf r.cols = some e.2 := by
  unfold boundedExtents at h
  cases h1 : boundedOf r.rows with
  | none => rw [h1] at h; cases h
  | some a =>
    cases h2 : boundedOf r.cols with
    | none => rw [h1, h2] at h; cases h
    | some b => rw [h1, h2] at h; rw [← Option.some.inj h]; exact ⟨rfl, rfl⟩

theorem rangeSourceExtent_spec {s e : AxisProj} {lo hi : Nat} {x : Nat × Nat} (hx : rangeSourceExtent s e lo hi = some x)
    (hs : ∀ i, s = .abs i → i ≤ u32Max) (he : ∀ i, e = .abs i → i ≤ u32Max) (hle : lo ≤ hi) :
    x.1 ≤ x.2 ∧ x.2 ≤ u32Max ∧ ∀ p, lo ≤ p → p ≤ hi → ∀ k : Int, Between (s.at_ p) (e.at_ p) k →
      (x.1 : Int) ≤ k ∧ k ≤ x.2 := by
  unfold rangeSourceExtent at hx
  cases hse : s.sourceExtent lo hi with
  | none => rw [hse] at hx; cases hx
  | some es =>
    rw [hse] at hx
    cases hee : e.sourceExtent lo hi with
    | none => rw [hee] at hx; cases hx
    | some ee =>
      rw [hee] at hx
      obtain ⟨S1, S2, S3, -⟩ := sourceExtent_spec hse hs hle
      obtain ⟨E1, E2, E3, -⟩ := sourceExtent_spec hee he hle
      rw [← Option.some.inj hx]
      refine ⟨by dsimp only; omega, by dsimp only; omega, fun p h1 h2 k hk => ?_⟩
      have := S3 p h1 h2
      have := E3 p h1 h2
      rw [between_iff] at hk
      dsimp only
      omega

/-- The read region of a reference contains every cell that some cell of the result reads. -/
theorem readRegion_covers {rule : Rule} {sheet : Nat} {result read : Region} (hres : result.Ok) (hf : rule.Fits)
    (h : rule.readRegion sheet result = some read) :
    read.Ok ∧ ∀ p k : Key, result.Has p → rule.Reads sheet p k → read.Has k := by
  cases rule with
  | wholeResult => cases h
  | wholeCols cs ce => cases h
  | cell row col =>
    simp only [Rule.readRegion] at h
    cases hb : boundedExtents result with
    | none => rw [hb] at h; cases h
    | some e =>
      obtain ⟨⟨rl, rh⟩, cl, ch⟩ := e
      rw [hb] at h
      dsimp only at h
      obtain ⟨hb1, hb2⟩ := boundedExtents_eq hb
      obtain ⟨q1, q2, q3, q4, q5⟩ := boundedOf_spec hb1 hres.1
      obtain ⟨w1, w2, w3, w4, w5⟩ := boundedOf_spec hb2 hres.2
      cases h1 : row.sourceExtent rl rh with
      | none => rw [h1] at h; cases h
      | some sr =>
        rw [h1] at h
        cases h2 : col.sourceExtent cl ch with
        | none => rw [h2] at h; cases h
        | some sc =>
          rw [h2] at h
          obtain ⟨S1, S2, S3, -⟩ := sourceExtent_spec h1 hf.1 q1
          obtain ⟨E1, E2, E3, -⟩ := sourceExtent_spec h2 hf.2 w1
          rw [← Option.some.inj h]
          refine ⟨regionOfExtents_ok S1 S2 E1 E2, fun p k hp hk => ?_⟩
          rw [regionOfExtents_has]
          obtain ⟨k1, k2, k3⟩ := hk
          have p1 := (q5 _).1 hp.2.1
          have p2 := (w5 _).1 hp.2.2
          have := S3 _ p1.1 p1.2
          have := E3 _ p2.1 p2.2
          exact ⟨k1, by omega, by omega⟩
  | range rs re cs ce =>
    simp only [Rule.readRegion] at h
    cases hb : boundedExtents result with
    | none => rw [hb] at h; cases h
    | some e =>
      obtain ⟨⟨rl, rh⟩, cl, ch⟩ := e
      rw [hb] at h
      dsimp only at h
      obtain ⟨hb1, hb2⟩ := boundedExtents_eq hb
      obtain ⟨q1, q2, q3, q4, q5⟩ := boundedOf_spec hb1 hres.1
      obtain ⟨w1, w2, w3, w4, w5⟩ := boundedOf_spec hb2 hres.2
      cases h1 : rangeSourceExtent rs re rl rh with
      | none => rw [h1] at h; cases h
      | some sr =>
        rw [h1] at h
        cases h2 : rangeSourceExtent cs ce cl ch with
        | none => rw [h2] at h; cases h
        | some sc =>
          rw [h2] at h
          obtain ⟨S1, S2, S3⟩ := rangeSourceExtent_spec h1 hf.1 hf.2.1 q1
          obtain ⟨E1, E2, E3⟩ := rangeSourceExtent_spec h2 hf.2.2.1 hf.2.2.2 w1
          rw [← Option.some.inj h]
          refine ⟨regionOfExtents_ok S1 S2 E1 E2, fun p k hp hk => ?_⟩
          rw [regionOfExtents_has]
          obtain ⟨k1, k2, k3⟩ := hk
          have p1 := (q5 _).1 hp.2.1
          have p2 := (w5 _).1 hp.2.2
          have := S3 _ p1.1 p1.2 _ k2
          have := E3 _ p2.1 p2.2 _ k3
          exact ⟨k1, by omega, by omega⟩

/-- The two axes of a rule with one reference, and the axes' results. -/
theorem project_axes {rule : Rule} {sheet : Nat} {changed read result : Region} (hres : result.Ok) (hch : changed.Ok)
    (hf : rule.Fits) (h : rule.readRegion sheet result = some read) :
    ∃ rows cols, ∃ R C : Nat → Prop, AxisGood rows result.rows R ∧ AxisGood cols result.cols C ∧
      (changed.intersects read = true →
        rule.project changed read result = projectAxes result.sheet rows cols true) ∧
      (changed.intersects read = false → rule.project changed read result = .noIntersection) ∧
      (∀ p : Key, (changed.sheet = sheet ∧ R p.row ∧ C p.col) ↔
        ∃ k : Key, k.Fits ∧ changed.Has k ∧ rule.Reads sheet p k) := by
  cases rule with
  | wholeResult => cases h
  | wholeCols cs ce => cases h
  | cell row col =>
    simp only [Rule.readRegion] at h
    cases hb : boundedExtents result with
    | none => rw [hb] at h; cases h
    | some e =>
      obtain ⟨⟨rl, rh⟩, cl, ch⟩ := e
      rw [hb] at h
      dsimp only at h
      obtain ⟨hb1, hb2⟩ := boundedExtents_eq hb
      cases h1 : row.sourceExtent rl rh with
      | none => rw [h1] at h; cases h
      | some sr =>
        rw [h1] at h
        cases h2 : col.sourceExtent cl ch with
        | none => rw [h2] at h; cases h
        | some sc =>
          refine ⟨_, _, _, _, projectChanged_good hch.1 hres.1 hb1 h1 hf.1,
            projectChanged_good hch.2 hres.2 hb2 h2 hf.2, fun hi => ?_, fun hi => ?_, fun p => ?_⟩
          · unfold Rule.project; rw [hi, hb]; rfl
          · unfold Rule.project; rw [hi]; rfl
          · constructor
            · rintro ⟨hs, ⟨r, r1, r2, r3⟩, c, c1, c2, c3⟩
              exact ⟨⟨sheet, r, c⟩, ⟨r1, c1⟩, ⟨hs.symm, r2, c2⟩, rfl, r3, c3⟩
            · rintro ⟨k, k1, k2, k3, k4, k5⟩
              exact ⟨k2.1.symm.trans k3, ⟨_, k1.1, k2.2.1, k4⟩, _, k1.2, k2.2.2, k5⟩
  | range rs re cs ce =>
    simp only [Rule.readRegion] at h
    cases hb : boundedExtents result with
    | none => rw [hb] at h; cases h
    | some e =>
      obtain ⟨⟨rl, rh⟩, cl, ch⟩ := e
      rw [hb] at h
      dsimp only at h
      obtain ⟨hb1, hb2⟩ := boundedExtents_eq hb
      cases h1 : rangeSourceExtent rs re rl rh with
      | none => rw [h1] at h; cases h
      | some sr =>
        rw [h1] at h
        cases h2 : rangeSourceExtent cs ce cl ch with
        | none => rw [h2] at h; cases h
        | some sc =>
          refine ⟨_, _, _, _, rangeProjectChanged_good hch.1 hres.1 hb1 h1 hf.1 hf.2.1,
            rangeProjectChanged_good hch.2 hres.2 hb2 h2 hf.2.2.1 hf.2.2.2, fun hi => ?_, fun hi => ?_, fun p => ?_⟩
          · unfold Rule.project; rw [hi, hb]; rfl
          · unfold Rule.project; rw [hi]; rfl
          · constructor
            · rintro ⟨hs, ⟨r, r1, r2, r3⟩, c, c1, c2, c3⟩
              exact ⟨⟨sheet, r, c⟩, ⟨r1, c1⟩, ⟨hs.symm, r2, c2⟩, rfl, r3, c3⟩
            · rintro ⟨k, k1, k2, k3, k4, k5⟩
              exact ⟨k2.1.symm.trans k3, ⟨_, k1.1, k2.2.1, k4⟩, _, k1.2, k2.2.2, k5⟩

/-- The projection of a change onto the result of a span, for a rule whose read region was computed for that result:
it does not give up, it marks only cells of the result, and it marks a cell exactly when the formula there reads a cell
of the changed region.  (The exactness leaves out row and column `u32::MAX`, which no sheet has.) -/
theorem project_exact {rule : Rule} {sheet : Nat} {changed read result : Region} (hres : result.Ok) (hch : changed.Ok)
    (hf : rule.Fits) (h : rule.readRegion sheet result = some read) :
    ((∃ d, rule.project changed read result = .exact_ d) ∨ rule.project changed read result = .noIntersection) ∧
      ∀ p : Key, p.row < u32Max → p.col < u32Max →
        ((rule.project changed read result).Marks result p ↔
          result.Has p ∧ ∃ k : Key, k.Fits ∧ changed.Has k ∧ rule.Reads sheet p k) := by
  obtain ⟨rows, cols, R, C, hr, hc, hi, hn, hrd⟩ := project_axes (changed := changed) hres hch hf h
  have hcov := readRegion_covers hres hf h
  cases hx : changed.intersects read with
  | false =>
    rw [hn hx]
    refine ⟨Or.inr rfl, fun p _ _ => ⟨False.elim, ?_⟩⟩
    rintro ⟨hp, k, k1, k2, k3⟩
    have := (Region.intersects_iff hch hcov.1).2 ⟨k, k1, k2, hcov.2 p k hp k3⟩
    rw [hx] at this
    cases this
  | true =>
    rw [hi hx]
    refine ⟨projectAxes_spec hr hc, fun p p1 p2 => ?_⟩
    have hs : changed.sheet = sheet := by
      obtain ⟨k, k1, k2, k3⟩ := (Region.intersects_iff hch hcov.1).1 hx
      have : read.sheet = sheet := by
        cases rule with
        | wholeResult => cases h
        | wholeCols cs ce => cases h
        | cell row col =>
          simp only [Rule.readRegion] at h
          split at h <;> try cases h
          split at h <;> try cases h
          split at h <;> try cases h
          rfl
        | range rs re cs ce =>
          simp only [Rule.readRegion] at h
          split at h <;> try cases h
          split at h <;> try cases h
          split at h <;> try cases h
          rfl
      rw [← this, ← k3.1]
      exact k2.1.symm
    have hm := projectAxes_marks hr hc (k := p) ⟨by omega, by omega⟩
    rw [← hrd p]
    constructor
    · intro hmark
      exact ⟨hm.1 hmark, hs, hm.2.2 p1 p2 hmark⟩
    · rintro ⟨h1, -, h2, h3⟩
      exact hm.2.1 h1 h2 h3

/-- Nothing that must be marked is left out, in any row and column, and nothing outside the result is marked. -/
theorem project_sound {rule : Rule} {sheet : Nat} {changed read result : Region} (hres : result.Ok) (hch : changed.Ok)
    (hf : rule.Fits) (h : rule.readRegion sheet result = some read) (p : Key) (hp : p.Fits) :
    ((rule.project changed read result).Marks result p → result.Has p) ∧
      (result.Has p → (∃ k : Key, k.Fits ∧ changed.Has k ∧ rule.Reads sheet p k) →
        (rule.project changed read result).Marks result p) := by
  obtain ⟨rows, cols, R, C, hr, hc, hi, hn, hrd⟩ := project_axes (changed := changed) hres hch hf h
  have hcov := readRegion_covers hres hf h
  cases hx : changed.intersects read with
  | false =>
    rw [hn hx]
    refine ⟨False.elim, ?_⟩
    rintro hp' ⟨k, k1, k2, k3⟩
    have := (Region.intersects_iff hch hcov.1).2 ⟨k, k1, k2, hcov.2 p k hp' k3⟩
    rw [hx] at this
    cases this
  | true =>
    rw [hi hx]
    have hm := projectAxes_marks hr hc hp
    refine ⟨hm.1, fun h1 h2 => ?_⟩
    rw [← hrd p] at h2
    exact hm.2.1 h1 h2.2.1 h2.2.2

/-- Whole columns: the regions read are the columns of the range, and a change in one of them marks the whole result. -/
theorem wholeCols_sound {cs ce : AxisProj} {sheet : Nat} {changed result : Region} {reads : List Region} (hres : result.Ok)
    (hch : changed.Ok) (hf : (Rule.wholeCols cs ce).Fits)
    (h : (Rule.wholeCols cs ce).readRegions sheet result = some reads) :
    (∀ r ∈ reads, r.Ok) ∧ ∀ p k : Key, k.Fits → result.Has p → changed.Has k → (Rule.wholeCols cs ce).Reads sheet p k →
      ∃ r ∈ reads, r.Has k ∧ ((Rule.wholeCols cs ce).project changed r result).Marks result p := by
  simp only [Rule.readRegions] at h
  cases hb : boundedExtents result with
  | none => rw [hb] at h; cases h
  | some e =>
    obtain ⟨⟨rl, rh⟩, cl, ch⟩ := e
    rw [hb] at h
    dsimp only at h
    obtain ⟨hb1, hb2⟩ := boundedExtents_eq hb
    obtain ⟨w1, w2, w3, w4, w5⟩ := boundedOf_spec hb2 hres.2
    cases h2 : rangeSourceExtent cs ce cl ch with
    | none => rw [h2] at h; cases h
    | some sc =>
      rw [h2] at h
      dsimp only at h
      obtain ⟨E1, E2, E3⟩ := rangeSourceExtent_spec h2 hf.1 hf.2 w1
      split at h
      · cases h
      · split at h
        · cases h
        · obtain rfl := Option.some.inj h
          constructor
          · intro r hr
            obtain ⟨i, hi, rfl⟩ := List.mem_map.1 hr
            rw [List.mem_range] at hi
            exact ⟨trivial, by simp only [Region.wholeCol, AxisRange.Ok]; omega⟩
          · intro p k hk hp hc hrd
            have p2 := (w5 _).1 hp.2.2
            have hb := E3 _ p2.1 p2.2 _ hrd.2
            refine ⟨Region.wholeCol sheet k.col, List.mem_map.2 ⟨k.col - sc.1, List.mem_range.2 (by omega), ?_⟩, ?_, ?_⟩
            · rw [show sc.1 + (k.col - sc.1) = k.col by omega]
            · exact ⟨hrd.1, trivial, rfl⟩
            · have hok : (Region.wholeCol sheet k.col).Ok := ⟨trivial, hk.2⟩
              have hi : changed.intersects (Region.wholeCol sheet k.col) = true :=
                (Region.intersects_iff hch hok).2 ⟨k, hk, hc, hrd.1, trivial, rfl⟩
              unfold Rule.project
              rw [hi]
              exact ⟨result, List.mem_singleton.2 rfl, hp⟩

/-- A running total: the formula in row `p` sums rows 1 to `p`; when row 6 changes, the rows from 6 on are marked. -/
example : (Rule.range (.abs 1) (.rel 0) (.abs 0) (.abs 0)).readRegion 0 ⟨0, .span 1 9, .point 2⟩ =
      some ⟨0, .span 1 9, .point 0⟩ ∧
    (Rule.range (.abs 1) (.rel 0) (.abs 0) (.abs 0)).project ⟨0, .point 6, .point 0⟩ ⟨0, .span 1 9, .point 0⟩
      ⟨0, .span 1 9, .point 2⟩ = .exact_ (.regions [⟨0, .span 6 9, .point 2⟩]) := by decide

/-- A whole column changes; the cells whose reference lies in that column are marked. -/
example : (Rule.cell (.rel (-1)) (.rel (-1))).project ⟨0, .all, .point 3⟩ ⟨0, .span 0 8, .span 1 4⟩
    ⟨0, .span 1 9, .span 2 5⟩ = .exact_ (.regions [⟨0, .span 1 9, .point 4⟩]) := by decide

end Verif.Plane

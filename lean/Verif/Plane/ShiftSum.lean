/-
The read summary of a span that is shifted.
-/
import Verif.Plane.ShiftPlan

namespace Verif.Plane.Edit

open Verif.Plane

/-! ### Lists -/

theorem mapM_forall₂ {α β : Type} {f : α → Option β} : ∀ {l : List α} {l' : List β}, l.mapM f = some l' →
    List.Forall₂ (fun a b => f a = some b) l l' := by
  intro l
  induction l with
  | nil =>
    intro l' h
    simp only [List.mapM_nil, Option.pure_def, Option.some.injEq] at h
    subst h
    exact .nil
  | cons a l ih =>
    intro l' h
    rw [List.mapM_cons] at h
    cases ha : f a with
    | none => rw [ha] at h; cases h
    | some b =>
      rw [ha] at h
      simp only [Option.bind_eq_bind, Option.bind_some, Option.pure_def] at h
      cases hl : l.mapM f with
      | none => rw [hl] at h; cases h
      | some bs =>
        rw [hl] at h
        simp only [Option.bind_some, Option.some.injEq] at h
        subst h
        exact .cons ha (ih hl)

theorem forall₂_left {α β : Type} {R : α → β → Prop} {l : List α} {l' : List β} (h : List.Forall₂ R l l') :
    ∀ a ∈ l, ∃ b ∈ l', R a b := by
  induction h with
  | nil => intro a ha; cases ha
  | cons h1 _ ih =>
    intro a ha
    rcases List.mem_cons.1 ha with rfl | ha
    · exact ⟨_, List.mem_cons_self, h1⟩
    · obtain ⟨b, hb, hr⟩ := ih a ha
      exact ⟨b, List.mem_cons_of_mem _ hb, hr⟩

theorem forall₂_right {α β : Type} {R : α → β → Prop} {l : List α} {l' : List β} (h : List.Forall₂ R l l') :
    ∀ b ∈ l', ∃ a ∈ l, R a b := by
  induction h with
  | nil => intro a ha; cases ha
  | cons h1 _ ih =>
    intro b hb
    rcases List.mem_cons.1 hb with rfl | hb
    · exact ⟨_, List.mem_cons_self, h1⟩
    · obtain ⟨a, ha, hr⟩ := ih b hb
      exact ⟨a, List.mem_cons_of_mem _ ha, hr⟩

/-! ### The result -/

theorem checkedShift_spec {v w : Nat} {d : Int} (h : checkedShift v d = some w) : (w : Int) = v + d ∧ w ≤ u32Max := by
  unfold checkedShift at h
  split at h
  · cases h; omega
  · cases h

/-- One axis of the result. -/
theorem shiftBounded_spec {a a' : AxisRange} {d : Int} (h : shiftBounded a d = some a') (ha : a.Ok) :
    ∃ lo hi lo' hi' : Nat, boundedOf a = some (lo, hi) ∧ boundedOf a' = some (lo', hi') ∧ (lo' : Int) = lo + d ∧
      (hi' : Int) = hi + d ∧ a'.Ok := by
  cases a with
  | point p =>
    simp only [shiftBounded, Option.map_eq_some_iff] at h
    obtain ⟨q, h1, rfl⟩ := h
    have := checkedShift_spec h1
    exact ⟨p, p, q, q, rfl, rfl, this.1, this.1, this.2⟩
  | span s e =>
    simp only [shiftBounded] at h
    cases h1 : checkedShift s d with
    | none => rw [h1] at h; cases h
    | some s' =>
      cases h2 : checkedShift e d with
      | none => rw [h1, h2] at h; cases h
      | some e' =>
        rw [h1, h2] at h
        cases h
        have i1 := checkedShift_spec h1
        have i2 := checkedShift_spec h2
        have := ha.1
        exact ⟨s, e, s', e', rfl, rfl, i1.1, i2.1, by omega, i2.2⟩
  | _ => cases h

/-- The result region and the region that it becomes, on both axes. -/
structure Shifts (result result' : Region) (dr dc : Int) : Prop where
  sheet : result'.sheet = result.sheet
  ok : result'.Ok
  rows : ∃ lo hi lo' hi' : Nat, boundedOf result.rows = some (lo, hi) ∧ boundedOf result'.rows = some (lo', hi') ∧
    (lo' : Int) = lo + dr ∧ (hi' : Int) = hi + dr
  cols : ∃ lo hi lo' hi' : Nat, boundedOf result.cols = some (lo, hi) ∧ boundedOf result'.cols = some (lo', hi') ∧
    (lo' : Int) = lo + dc ∧ (hi' : Int) = hi + dc

theorem shiftDomain_spec {r r' : Region} {dr dc : Int} (h : shiftDomain r dr dc = some r') (hr : r.Ok) :
    Shifts r r' dr dc := by
  unfold shiftDomain at h
  cases h1 : shiftBounded r.rows dr with
  | none => rw [h1] at h; cases h
  | some a =>
    cases h2 : shiftBounded r.cols dc with
    | none => rw [h1, h2] at h; cases h
    | some b =>
      rw [h1, h2] at h
      cases h
      obtain ⟨lo, hi, lo', hi', a1, a2, a3, a4, a5⟩ := shiftBounded_spec h1 hr.1
      obtain ⟨mo, mi, mo', mi', b1, b2, b3, b4, b5⟩ := shiftBounded_spec h2 hr.2
      exact ⟨rfl, ⟨a5, b5⟩, ⟨lo, hi, lo', hi', a1, a2, a3, a4⟩, ⟨mo, mi, mo', mi', b1, b2, b3, b4⟩⟩

/-- The cells of the shifted region. -/
theorem Shifts.has {r r' : Region} {dr dc : Int} (h : Shifts r r' dr dc) (hr : r.Ok) {p p' : Key} (hs : p'.sheet = p.sheet)
    (h1 : (p'.row : Int) = p.row + dr) (h2 : (p'.col : Int) = p.col + dc) : r'.Has p' ↔ r.Has p := by
  obtain ⟨lo, hi, lo', hi', a1, a2, a3, a4⟩ := h.rows
  obtain ⟨mo, mi, mo', mi', b1, b2, b3, b4⟩ := h.cols
  have q1 := (boundedOf_spec a1 hr.1).2.2.2.2 p.row
  have q2 := (boundedOf_spec a2 h.ok.1).2.2.2.2 p'.row
  have w1 := (boundedOf_spec b1 hr.2).2.2.2.2 p.col
  have w2 := (boundedOf_spec b2 h.ok.2).2.2.2.2 p'.col
  unfold Region.Has
  rw [q1, q2, w1, w2, h.sheet, hs]
  omega

/-! ### Extents -/

theorem ext_move {a b : AxisProj} {lo hi lo' hi' : Nat} {d : Int} (h1 : (lo' : Int) = lo + d) (h2 : (hi' : Int) = hi + d) :
    rangeSourceExtent (addProj a (-d)) (addProj b (-d)) lo' hi' = rangeSourceExtent a b lo hi := by
  have add : ∀ (x x' : Nat) (o : Int), (x' : Int) = x + d → addOffset x' (o + -d) = addOffset x o := by
    intro x x' o h
    unfold addOffset
    rw [show (x' : Int) + (o + -d) = x + o by omega]
  have one : ∀ a : AxisProj, (addProj a (-d)).sourceExtent lo' hi' = a.sourceExtent lo hi := by
    intro a
    cases a with
    | abs i => rfl
    | rel o => simp only [addProj, AxisProj.sourceExtent, add lo lo' o h1, add hi hi' o h2]
  unfold rangeSourceExtent
  rw [one a, one b]

theorem ext_abs {i j lo hi lo' hi' : Nat} :
    rangeSourceExtent (.abs i) (.abs j) lo' hi' = rangeSourceExtent (.abs i) (.abs j) lo hi := rfl

theorem ext_rel {o q : Int} {lo hi lo' hi' : Nat} {d : Int} (h1 : (lo' : Int) = lo + d) (h2 : (hi' : Int) = hi + d)
    {e e' : Nat × Nat} (h : rangeSourceExtent (.rel o) (.rel q) lo hi = some e) (e1 : (e'.1 : Int) = e.1 + d)
    (e2 : (e'.2 : Int) = e.2 + d) (h3 : e'.2 ≤ u32Max) (hle : lo ≤ hi) :
    rangeSourceExtent (.rel o) (.rel q) lo' hi' = some e' := by
  unfold rangeSourceExtent AxisProj.sourceExtent at h ⊢
  dsimp only at h ⊢
  cases a1 : addOffset lo o with
  | none => rw [a1] at h; cases h
  | some v1 =>
    cases a2 : addOffset hi o with
    | none => rw [a1, a2] at h; cases h
    | some v2 =>
      cases a3 : addOffset lo q with
      | none => rw [a1, a2, a3] at h; cases h
      | some v3 =>
        cases a4 : addOffset hi q with
        | none => rw [a1, a2, a3, a4] at h; cases h
        | some v4 =>
          rw [a1, a2, a3, a4] at h
          dsimp only at h
          cases h
          dsimp only at e1 e2
          have b1 := addOffset_eq a1
          have b2 := addOffset_eq a2
          have b3 := addOffset_eq a3
          have b4 := addOffset_eq a4
          obtain ⟨w1, hw1⟩ : ∃ w : Nat, (w : Int) = v1 + d := ⟨(v1 + d).toNat, by omega⟩
          obtain ⟨w2, hw2⟩ : ∃ w : Nat, (w : Int) = v2 + d := ⟨(v2 + d).toNat, by omega⟩
          obtain ⟨w3, hw3⟩ : ∃ w : Nat, (w : Int) = v3 + d := ⟨(v3 + d).toNat, by omega⟩
          obtain ⟨w4, hw4⟩ : ∃ w : Nat, (w : Int) = v4 + d := ⟨(v4 + d).toNat, by omega⟩
          rw [addOffset_some (w := w1) (by omega) (by omega), addOffset_some (w := w2) (by omega) (by omega),
            addOffset_some (w := w3) (by omega) (by omega), addOffset_some (w := w4) (by omega) (by omega)]
          dsimp only
          have : e' = (e'.1, e'.2) := rfl
          rw [this]
          congr 2 <;> omega

/-- The range that stands for an extent. -/
def extRange (e : Nat × Nat) : AxisRange := if e.1 = e.2 then .point e.1 else .span e.1 e.2

theorem project_ext {e e' : Nat × Nat} {d : Int} (e1 : (e'.1 : Int) = e.1 + d) (e2 : (e'.2 : Int) = e.2 + d)
    (hle : e.1 ≤ e.2) (hu : e.2 ≤ u32Max) (hd : SmallOffset d) (h3 : e'.2 ≤ u32Max) :
    (extRange e).projectThroughOffset d = some (extRange e') := by
  have hsh : ∀ x : Nat, x ≤ u32Max → AxisRange.shifted x d = x + d := fun x hx =>
    AxisRange.shifted_eq hx (by unfold SmallOffset at hd; unfold i64Min i64Max u32Max at *; omega)
  unfold extRange
  split
  · next he =>
    rw [if_pos (by omega)]
    simp only [AxisRange.projectThroughOffset, hsh e.1 (by omega)]
    rw [if_pos (by omega)]
    congr 2
    omega
  · next he =>
    rw [if_neg (by omega)]
    simp only [AxisRange.projectThroughOffset, hsh e.1 (by omega), hsh e.2 hu]
    rw [if_neg (by omega)]
    have c1 := AxisRange.clampU32_eq ((e.1 : Int) + d)
    have c2 := AxisRange.clampU32_eq ((e.2 : Int) + d)
    congr 2 <;> omega

theorem ext_bounds (e : Nat × Nat) : (extRange e).bounds = e := by
  unfold extRange
  split
  · next h => exact Prod.ext rfl h
  · rfl

theorem ext_ne_all (e : Nat × Nat) : extRange e ≠ .all := by
  unfold extRange
  split <;> simp

theorem regionOfExtents_eq (sheet : Nat) (a b : Nat × Nat) : regionOfExtents sheet a b = ⟨sheet, extRange a, extRange b⟩ := rfl

/-! ### Read regions from extents -/

theorem readRegions_affine {rule : Rule} {sheet : Nat} {result : Region} {a b c d : AxisProj} {rr rc sr sc : Nat × Nat}
    (h1 : rowEnds rule = some (a, b)) (h2 : colEnds rule = some (c, d)) (h3 : boundedOf result.rows = some rr)
    (h4 : boundedOf result.cols = some rc) (h5 : rangeSourceExtent a b rr.1 rr.2 = some sr)
    (h6 : rangeSourceExtent c d rc.1 rc.2 = some sc) :
    rule.readRegions sheet result = some [regionOfExtents sheet sr sc] := by
  have hb : boundedExtents result = some (rr, rc) := by unfold boundedExtents; rw [h3, h4]
  have key : (Rule.range a b c d).readRegion sheet result = some (regionOfExtents sheet sr sc) := by
    simp only [Rule.readRegion, hb, h5, h6]
  cases rule with
  | cell r c =>
    cases h1; cases h2
    rw [← cell_readRegion] at key
    simp only [Rule.readRegions, key, Option.map_some]
  | range a b c d =>
    cases h1; cases h2
    simp only [Rule.readRegions, key, Option.map_some]
  | _ => cases h1

theorem readRegions_whole {sheet : Nat} {result : Region} {c d : AxisProj} {rr rc sc : Nat × Nat}
    (h3 : boundedOf result.rows = some rr) (h4 : boundedOf result.cols = some rc)
    (h6 : rangeSourceExtent c d rc.1 rc.2 = some sc) (h7 : sc.1 ≤ sc.2) (h8 : sc.2 - sc.1 + 1 ≤ 256) :
    (Rule.wholeCols c d).readRegions sheet result =
      some ((List.range (sc.2 + 1 - sc.1)).map fun i => Region.wholeCol sheet (sc.1 + i)) := by
  have hb : boundedExtents result = some (rr, rc) := by unfold boundedExtents; rw [h3, h4]
  simp only [Rule.readRegions, hb, h6]
  rw [if_neg (by unfold u32Max; omega), if_neg (by omega)]

theorem ends_add {rule : Rule} {dr dc : Int} {a b : AxisProj} :
    (rowEnds rule = some (a, b) → rowEnds (addRule rule dr dc) = some (addProj a dr, addProj b dr)) ∧
    (colEnds rule = some (a, b) → colEnds (addRule rule dr dc) = some (addProj a dc, addProj b dc)) := by
  cases rule <;> exact ⟨fun h => by cases h <;> rfl, fun h => by cases h <;> rfl⟩

/-! ### One rule -/

theorem readRegions_moving {rule : Rule} {sheet : Nat} {result result' : Region} {rs : List Region} {dr dc : Int}
    (hs : Shifts result result' dr dc) (h : rule.readRegions sheet result = some rs) :
    (addRule rule (-dr) (-dc)).readRegions sheet result' = some rs := by
  obtain ⟨rr, rc, c, d, sc, h1, h2, h3, h4, h5⟩ := readRegions_shape h
  obtain ⟨lo, hi, lo', hi', a1, a2, a3, a4⟩ := hs.rows
  obtain ⟨mo, mi, mo', mi', b1, b2, b3, b4⟩ := hs.cols
  rw [a1] at h1; cases h1
  rw [b1] at h2; cases h2
  have h4' := (ext_move (a := c) (b := d) b3 b4).trans h4
  rcases h5 with ⟨a, b, sr, h5, h6, rfl⟩ | ⟨rfl, h5, h6, rfl⟩
  · have h6' := (ext_move (a := a) (b := b) a3 a4).trans h6
    exact readRegions_affine (ends_add.1 h5) (ends_add.2 h3) a2 b2 h6' h4'
  · cases h3
    exact readRegions_whole a2 b2 h4' h5 h6

/-- The read regions leave room for the operation. -/
def Room (op : Op) (deps : List Dependency) : Prop := ∀ d ∈ deps,
  op.axis d.read = .all ∨ (op.axis d.read).bounds.2 + op.count ≤ u32Max

/-- A rule of a pinned formula has bounds of one kind on the axis. -/
theorem pinned_kind {op : Op} {rule : Rule} {rs : List Region} (hne : rs ≠ [])
    (h : ∀ g ∈ rs, (op.classify g = .above → op.hasAbsolute rule = false) ∧
      (op.classify g ≠ .above → op.hasRelative rule = false)) (hb : op.bounds rule ≠ []) :
    ((∀ g ∈ rs, op.classify g = .above) ∧ ∀ b ∈ op.bounds rule, ∃ o, b = .rel o) ∨
      ((∀ g ∈ rs, op.classify g ≠ .above) ∧ ∀ b ∈ op.bounds rule, ∃ i, b = .abs i) := by
  obtain ⟨g0, hg0⟩ := List.exists_mem_of_ne_nil rs hne
  obtain ⟨b, hb0⟩ := List.exists_mem_of_ne_nil _ hb
  cases b with
  | rel o =>
    left
    have ha : ∀ g ∈ rs, op.classify g = .above := by
      intro g hg
      by_contra hc
      obtain ⟨i, hi⟩ := (not_relative ((h g hg).2 hc)).2 _ hb0
      cases hi
    exact ⟨ha, not_absolute ((h g0 hg0).1 (ha g0 hg0))⟩
  | abs i =>
    right
    have ha : ∀ g ∈ rs, op.classify g ≠ .above := by
      intro g hg hc
      obtain ⟨i, hi⟩ := not_absolute ((h g hg).1 hc) _ hb0
      cases hi
    exact ⟨ha, (not_relative ((h g0 hg0).2 (ha g0 hg0))).2⟩

theorem small_delta {op : Op} (hop : op.Fits) : SmallOffset op.rowDelta ∧ SmallOffset op.colDelta ∧ SmallOffset op.delta := by
  have := hop.room
  unfold SmallOffset Op.rowDelta Op.colDelta Op.delta
  refine ⟨?_, ?_, ?_⟩
  · split
    · split <;> omega
    · omega
  · split
    · omega
    · split <;> omega
  · split <;> omega

/-- What `shifted_read_summary` makes of a read region, when the origin stays. -/
def stepRegion (op : Op) (g : Region) : Option Region :=
  if op.classify g = .above then g.projectThroughAxisShift op.rowDelta op.colDelta else some g

theorem project_same {a : AxisRange} (ha : a.Ok) : a.projectThroughOffset 0 = some a := by
  have hsh : ∀ x : Nat, x ≤ u32Max → AxisRange.shifted x 0 = x := fun x hx => by
    rw [AxisRange.shifted_eq hx (by unfold i64Min i64Max u32Max; omega)]; omega
  have hcl : ∀ x : Nat, x ≤ u32Max → AxisRange.clampU32 x = x := fun x hx => by
    have := AxisRange.clampU32_eq x; omega
  cases a with
  | point p =>
    have hp : p ≤ u32Max := ha
    simp only [AxisRange.projectThroughOffset, hsh p hp]
    rw [if_pos (by omega)]; rfl
  | span s e =>
    have h1 := ha.1
    have h2 := ha.2
    simp only [AxisRange.projectThroughOffset, hsh s (by omega), hsh e h2, hcl s (by omega), hcl e h2]
    rw [if_neg (by omega)]
  | from_ s =>
    have hs : s ≤ u32Max := ha
    simp only [AxisRange.projectThroughOffset, hsh s hs, hcl s hs]
    rw [if_neg (by omega)]
  | «to» e =>
    have he : e ≤ u32Max := ha
    simp only [AxisRange.projectThroughOffset, hsh e he, hcl e he]
    rw [if_neg (by omega)]
  | all => rfl

theorem forall₂_map_same {α β γ : Type} {R : β → γ → Prop} {f : α → β} {g : α → γ} : ∀ {l : List α}, (∀ a ∈ l, R (f a) (g a)) →
    List.Forall₂ R (l.map f) (l.map g)
  | [], _ => .nil
  | _ :: _, h => .cons (h _ List.mem_cons_self) (forall₂_map_same fun b hb => h b (List.mem_cons_of_mem _ hb))

theorem readRegions_pinned {op : Op} (hop : op.Fits) {rule : Rule} {sheet : Nat} {result result' : Region} {rs : List Region}
    (hres : result.Ok) (hf : rule.Fits) (hs : Shifts result result' op.rowDelta op.colDelta)
    (h : rule.readRegions sheet result = some rs)
    (hk : ∀ g ∈ rs, (op.classify g = .above → op.hasAbsolute rule = false) ∧
      (op.classify g ≠ .above → op.hasRelative rule = false))
    (hroom : ∀ g ∈ rs, op.axis g = .all ∨ (op.axis g).bounds.2 + op.count ≤ u32Max) :
    ∃ rs', rule.readRegions sheet result' = some rs' ∧ List.Forall₂ (fun g g' => stepRegion op g = some g') rs rs' := by
  have hne := (bounds_in_regions (op := op) hres hf h).2.1
  obtain ⟨rr, rc, c, d, sc, h1, h2, h3, h4, h5⟩ := readRegions_shape h
  obtain ⟨lo, hi, lo', hi', a1, a2, a3, a4⟩ := hs.rows
  obtain ⟨mo, mi, mo', mi', b1, b2, b3, b4⟩ := hs.cols
  rw [a1] at h1; cases h1
  rw [b1] at h2; cases h2
  obtain ⟨q1, q2, -⟩ := boundedOf_spec a1 hres.1
  obtain ⟨w1, w2, -⟩ := boundedOf_spec b1 hres.2
  have fc := colEnds_fits h3 hf
  obtain ⟨c1, c2, -⟩ := rangeSourceExtent_spec h4 fc.1 fc.2 w1
  obtain ⟨-, -, sd⟩ := small_delta hop
  rcases h5 with ⟨a, b, sr, h5, h6, rfl⟩ | ⟨rfl, h5, h6, rfl⟩
  · have fr := rowEnds_fits h5 hf
    obtain ⟨r1, r2, -⟩ := rangeSourceExtent_spec h6 fr.1 fr.2 q1
    have hroom' := hroom _ (List.mem_singleton.2 rfl)
    cases hr : op.rows with
    | true =>
      simp only [Op.rowDelta, Op.colDelta, hr, if_true] at a3 a4 b3 b4
      have h4' : rangeSourceExtent c d mo' mi' = some sc := by
        rw [show mo' = mo by omega, show mi' = mi by omega]; exact h4
      have hbd : op.bounds rule ≠ [] ∧ ∀ x, x = a ∨ x = b → x ∈ op.bounds rule := by
        cases rule with
        | cell r c => cases h5; simp [Op.bounds, hr]
        | range a b c d => cases h5; simp [Op.bounds, hr]
        | _ => cases h5
      have hax : op.axis (regionOfExtents sheet sr sc) = extRange sr := by simp [Op.axis, hr, regionOfExtents_eq]
      rw [hax] at hroom'
      rcases pinned_kind hne hk hbd.1 with ⟨k1, k2⟩ | ⟨k1, k2⟩
      · obtain ⟨o, rfl⟩ := k2 a (hbd.2 a (Or.inl rfl))
        obtain ⟨q, rfl⟩ := k2 b (hbd.2 b (Or.inr rfl))
        have hab := k1 _ (List.mem_singleton.2 rfl)
        have hab' := (classify_sheet hop (r := regionOfExtents sheet sr sc) (x := sr.1)
          (by rw [hax]; exact (extent_has sr sr.1).2 ⟨Nat.le_refl _, r1⟩)).2.2 hab
        have hroom2 : sr.2 + op.count ≤ u32Max := by
          rcases hroom' with e | e
          · exact absurd e (ext_ne_all sr)
          · rw [ext_bounds] at e; exact e
        have hge : 0 ≤ (sr.1 : Int) + op.delta ∧ (sr.2 : Int) + op.delta ≤ u32Max := by
          obtain ⟨-, -, u⟩ := hab'
          unfold Op.delta
          split
          · next hd => have := u hd; omega
          · omega
        obtain ⟨s1, hs1⟩ : ∃ w : Nat, (w : Int) = sr.1 + op.delta := ⟨((sr.1 : Int) + op.delta).toNat, by omega⟩
        obtain ⟨s2, hs2⟩ : ∃ w : Nat, (w : Int) = sr.2 + op.delta := ⟨((sr.2 : Int) + op.delta).toNat, by omega⟩
        have h6' := ext_rel (e' := (s1, s2)) a3 a4 h6 hs1 hs2 (by dsimp only; omega) q1
        refine ⟨_, readRegions_affine h5 h3 a2 b2 h6' h4', .cons ?_ .nil⟩
        unfold stepRegion
        rw [if_pos hab]
        simp only [regionOfExtents_eq, Region.projectThroughAxisShift, Op.rowDelta, Op.colDelta, hr, if_true,
          project_ext (e' := (s1, s2)) hs1 hs2 r1 r2 sd (by dsimp only; omega),
          project_ext (e := sc) (e' := sc) (d := 0) (by omega) (by omega) c1 c2 (by unfold SmallOffset; omega) c2]
      · obtain ⟨i, rfl⟩ := k2 a (hbd.2 a (Or.inl rfl))
        obtain ⟨j, rfl⟩ := k2 b (hbd.2 b (Or.inr rfl))
        refine ⟨_, readRegions_affine h5 h3 a2 b2 h6 h4', .cons ?_ .nil⟩
        unfold stepRegion
        rw [if_neg (k1 _ (List.mem_singleton.2 rfl))]
    | false =>
      simp only [Op.rowDelta, Op.colDelta, hr, Bool.false_eq_true, if_false] at a3 a4 b3 b4
      have h6' : rangeSourceExtent a b lo' hi' = some sr := by
        rw [show lo' = lo by omega, show hi' = hi by omega]; exact h6
      have hbd : op.bounds rule ≠ [] ∧ ∀ x, x = c ∨ x = d → x ∈ op.bounds rule := by
        cases rule with
        | cell r c => cases h3; simp [Op.bounds, hr]
        | range a b c d => cases h3; simp [Op.bounds, hr]
        | _ => cases h5
      have hax : op.axis (regionOfExtents sheet sr sc) = extRange sc := by simp [Op.axis, hr, regionOfExtents_eq]
      rw [hax] at hroom'
      rcases pinned_kind hne hk hbd.1 with ⟨k1, k2⟩ | ⟨k1, k2⟩
      · obtain ⟨o, rfl⟩ := k2 c (hbd.2 c (Or.inl rfl))
        obtain ⟨q, rfl⟩ := k2 d (hbd.2 d (Or.inr rfl))
        have hab := k1 _ (List.mem_singleton.2 rfl)
        have hab' := (classify_sheet hop (r := regionOfExtents sheet sr sc) (x := sc.1)
          (by rw [hax]; exact (extent_has sc sc.1).2 ⟨Nat.le_refl _, c1⟩)).2.2 hab
        have hroom2 : sc.2 + op.count ≤ u32Max := by
          rcases hroom' with e | e
          · exact absurd e (ext_ne_all sc)
          · rw [ext_bounds] at e; exact e
        have hge : 0 ≤ (sc.1 : Int) + op.delta ∧ (sc.2 : Int) + op.delta ≤ u32Max := by
          obtain ⟨-, -, u⟩ := hab'
          unfold Op.delta
          split
          · next hd => have := u hd; omega
          · omega
        obtain ⟨s1, hs1⟩ : ∃ w : Nat, (w : Int) = sc.1 + op.delta := ⟨((sc.1 : Int) + op.delta).toNat, by omega⟩
        obtain ⟨s2, hs2⟩ : ∃ w : Nat, (w : Int) = sc.2 + op.delta := ⟨((sc.2 : Int) + op.delta).toNat, by omega⟩
        have h4' := ext_rel (e' := (s1, s2)) b3 b4 h4 hs1 hs2 (by dsimp only; omega) w1
        refine ⟨_, readRegions_affine h5 h3 a2 b2 h6' h4', .cons ?_ .nil⟩
        unfold stepRegion
        rw [if_pos hab]
        simp only [regionOfExtents_eq, Region.projectThroughAxisShift, Op.rowDelta, Op.colDelta, hr, Bool.false_eq_true,
          if_false, project_ext (e' := (s1, s2)) hs1 hs2 c1 c2 sd (by dsimp only; omega),
          project_ext (e := sr) (e' := sr) (d := 0) (by omega) (by omega) r1 r2 (by unfold SmallOffset; omega) r2]
      · obtain ⟨i, rfl⟩ := k2 c (hbd.2 c (Or.inl rfl))
        obtain ⟨j, rfl⟩ := k2 d (hbd.2 d (Or.inr rfl))
        refine ⟨_, readRegions_affine h5 h3 a2 b2 h6' h4, .cons ?_ .nil⟩
        unfold stepRegion
        rw [if_neg (k1 _ (List.mem_singleton.2 rfl))]
  · cases h3
    cases hr : op.rows with
    | true =>
      simp only [Op.rowDelta, Op.colDelta, hr, if_true] at b3 b4
      have h4' : rangeSourceExtent c d mo' mi' = some sc := by
        rw [show mo' = mo by omega, show mi' = mi by omega]; exact h4
      refine ⟨_, readRegions_whole a2 b2 h4' h5 h6, forall₂_map_same fun i hi => ?_⟩
      have hi := List.mem_range.1 hi
      unfold stepRegion
      split
      · simp only [Region.wholeCol, Region.projectThroughAxisShift, Op.rowDelta, Op.colDelta, hr, if_true]
        rw [project_same (a := .point (sc.1 + i)) (by show sc.1 + i ≤ u32Max; omega)]
        rfl
      · rfl
    | false =>
      simp only [Op.rowDelta, Op.colDelta, hr, Bool.false_eq_true, if_false] at a3 a4 b3 b4
      have hbd : op.bounds (.wholeCols c d) = [c, d] := by simp [Op.bounds, hr]
      have hmem : ∀ x : Nat, sc.1 ≤ x → x ≤ sc.2 → Region.wholeCol sheet x ∈
          (List.range (sc.2 + 1 - sc.1)).map (fun i => Region.wholeCol sheet (sc.1 + i)) := fun x x1 x2 =>
        List.mem_map.2 ⟨x - sc.1, List.mem_range.2 (by omega), by rw [show sc.1 + (x - sc.1) = x by omega]⟩
      rcases pinned_kind hne hk (by rw [hbd]; simp) with ⟨k1, k2⟩ | ⟨k1, k2⟩
      · obtain ⟨o, rfl⟩ := k2 c (by rw [hbd]; simp)
        obtain ⟨q, rfl⟩ := k2 d (by rw [hbd]; simp)
        have fact : ∀ x : Nat, sc.1 ≤ x → x ≤ sc.2 → 0 ≤ (x : Int) + op.delta ∧ (x : Int) + op.delta ≤ u32Max := by
          intro x x1 x2
          have hax : op.axis (Region.wholeCol sheet x) = .point x := by simp [Op.axis, hr, Region.wholeCol]
          have hab := (classify_sheet hop (r := Region.wholeCol sheet x) (x := x) (by rw [hax]; rfl)).2.2 (k1 _ (hmem x x1 x2))
          have hro := hroom _ (hmem x x1 x2)
          rw [hax] at hro
          simp only [AxisRange.bounds, reduceCtorEq, false_or] at hro
          obtain ⟨-, -, u⟩ := hab
          unfold Op.delta
          split
          · next hd => have := u hd; omega
          · omega
        have f1 := fact sc.1 (Nat.le_refl _) h5
        have f2 := fact sc.2 h5 (Nat.le_refl _)
        obtain ⟨s1, hs1⟩ : ∃ w : Nat, (w : Int) = sc.1 + op.delta := ⟨((sc.1 : Int) + op.delta).toNat, by omega⟩
        obtain ⟨s2, hs2⟩ : ∃ w : Nat, (w : Int) = sc.2 + op.delta := ⟨((sc.2 : Int) + op.delta).toNat, by omega⟩
        have h4' := ext_rel (e' := (s1, s2)) b3 b4 h4 hs1 hs2 (by dsimp only; omega) w1
        refine ⟨_, readRegions_whole a2 b2 h4' (by dsimp only; omega) (by dsimp only; omega), ?_⟩
        dsimp only
        rw [show s2 + 1 - s1 = sc.2 + 1 - sc.1 by omega]
        refine forall₂_map_same fun i hi => ?_
        have hi := List.mem_range.1 hi
        have f3 := fact (sc.1 + i) (by omega) (by omega)
        unfold stepRegion
        rw [if_pos (k1 _ (hmem _ (by omega) (by omega)))]
        have := project_ext (e := (sc.1 + i, sc.1 + i)) (e' := (s1 + i, s1 + i)) (d := op.delta) (by dsimp only; omega)
          (by dsimp only; omega) (Nat.le_refl _) (by dsimp only; omega) sd (by dsimp only; omega)
        simp only [extRange, if_true] at this
        simp only [Region.wholeCol, Region.projectThroughAxisShift, Op.rowDelta, Op.colDelta, hr, Bool.false_eq_true,
          if_false, AxisRange.projectThroughOffset] at this ⊢
        rw [this]
      · obtain ⟨i, rfl⟩ := k2 c (by rw [hbd]; simp)
        obtain ⟨j, rfl⟩ := k2 d (by rw [hbd]; simp)
        refine ⟨_, readRegions_whole a2 b2 h4 h5 h6, forall₂_map_same fun i hi => ?_⟩
        have hi := List.mem_range.1 hi
        unfold stepRegion
        rw [if_neg (k1 _ (hmem _ (by omega) (by omega)))]

/-! ### The summary -/

theorem shiftDep_eq {op : Op} {dr dc : Int} {d d' : Dependency} (h : shiftDep op dr dc d = some d') :
    d'.rule = d.rule.shifted (-dr) (-dc) ∧ stepRegion op d.read = some d'.read := by
  unfold shiftDep at h
  unfold stepRegion
  cases hc : op.classify d.read <;> rw [hc] at h
  · cases h; exact ⟨rfl, rfl⟩
  · cases h; exact ⟨rfl, rfl⟩
  · simp only [Option.map_eq_some_iff] at h
    obtain ⟨r, h1, rfl⟩ := h
    exact ⟨rfl, by simpa using h1⟩
  · cases h
  · cases h

theorem mem_of_forall₂ {α β : Type} {R : α → β → Prop} {f : α → Option β} (hR : ∀ a b, R a b → f a = some b) {l : List α} {l' : List β}
    (h : List.Forall₂ R l l') {a : α} (ha : a ∈ l) {b : β} (hb : f a = some b) : b ∈ l' := by
  obtain ⟨b', h1, h2⟩ := forall₂_left h a ha
  have := hR a b' h2
  rw [hb] at this
  cases this
  exact h1

/-- A summary whose rules and regions are mapped one by one. -/
theorem summary_step {op : Op} {dr dc : Int} {result result' : Region} {xs : List (Nat × Rule)} {deps deps' : List Dependency}
    (hsum : Summary result xs deps) (hd : shiftDeps op dr dc deps = some deps')
    (hx : ∀ x ∈ xs, ∀ rs, x.2.readRegions x.1 result = some rs → (∀ g ∈ rs, (⟨g, x.2⟩ : Dependency) ∈ deps) →
      ∃ rs', (x.2.shifted (-dr) (-dc)).readRegions x.1 result' = some rs' ∧
        List.Forall₂ (fun g g' => stepRegion op g = some g') rs rs') :
    Summary result' (xs.map fun x => (x.1, x.2.shifted (-dr) (-dc))) deps' := by
  have hall := mapM_forall₂ hd
  constructor
  · intro y hy
    obtain ⟨x, hxm, rfl⟩ := List.mem_map.1 hy
    obtain ⟨rs, h1, h2⟩ := hsum.covers x hxm
    obtain ⟨rs', h3, h4⟩ := hx x hxm rs h1 h2
    refine ⟨rs', h3, fun g' hg' => ?_⟩
    obtain ⟨g, hg, hgg⟩ := forall₂_right h4 g' hg'
    obtain ⟨d', hd', e⟩ := forall₂_left hall _ (h2 g hg)
    obtain ⟨e1, e2⟩ := shiftDep_eq e
    dsimp only at e1 e2
    rw [hgg] at e2
    cases e2
    obtain ⟨g', r'⟩ := d'
    subst e1
    exact hd'
  · intro d' hd'
    obtain ⟨d, hdm, e⟩ := forall₂_right hall d' hd'
    obtain ⟨e1, e2⟩ := shiftDep_eq e
    obtain ⟨x, hxm, hr, rs, h1, h2⟩ := hsum.only d hdm
    obtain ⟨rs0, h1', h2'⟩ := hsum.covers x hxm
    rw [h1] at h1'
    cases h1'
    obtain ⟨rs', h3, h4⟩ := hx x hxm rs h1 h2'
    refine ⟨_, List.mem_map.2 ⟨x, hxm, rfl⟩, by rw [e1, hr], rs', h3, ?_⟩
    exact mem_of_forall₂ (f := stepRegion op) (fun _ _ h => h) h4 h2 e2

section
variable {op : Op} {result result' : Region} {xs : List (Nat × Rule)} {deps deps' : List Dependency}

theorem shifted_zero (rule : Rule) : rule.shifted (-0) (-0) = rule := by unfold Rule.shifted; simp

/-- The summary of a pinned formula. -/
theorem summary_pinned (hop : op.Fits) (hres : result.Ok) (hsum : Summary result xs deps) (hxs : RulesOk xs)
    (hroom : Room op deps) (h : classifySpan op result deps = .shift false false)
    (hr : shiftDomain result op.rowDelta op.colDelta = some result') (hd : shiftDeps op 0 0 deps = some deps') :
    Summary result' xs deps' := by
  obtain ⟨-, rs0, h2⟩ := span_shift h
  have := summary_step (result' := result') hsum hd (fun x hx rs h1 hg => by
    rw [shifted_zero]
    exact readRegions_pinned hop hres (hxs x hx).2 (shiftDomain_spec hr hres) h1
      (fun g hgm => plan_pinned h2 _ (hg g hgm)) (fun g hgm => hroom _ (hg g hgm)))
  simp only [shifted_zero, List.map_id'] at this
  exact this

/-- The summary of a formula whose origin moves with it. -/
theorem summary_moving (hop : op.Fits) (hres : result.Ok) (hsum : Summary result xs deps) (hxs : RulesOk xs)
    (h : classifySpan op result deps = .shift true false) (hr : shiftDomain result op.rowDelta op.colDelta = some result')
    (hd : shiftDeps op op.rowDelta op.colDelta deps = some deps') :
    Summary result' (xs.map fun x => (x.1, addRule x.2 (-op.rowDelta) (-op.colDelta))) deps' := by
  obtain ⟨-, rs0, h2⟩ := span_shift h
  obtain ⟨s1, s2, -⟩ := small_delta hop
  have heq : ∀ x ∈ xs, x.2.shifted (-op.rowDelta) (-op.colDelta) = addRule x.2 (-op.rowDelta) (-op.colDelta) := by
    intro x hx
    obtain ⟨rs, h1, -⟩ := hsum.covers x hx
    exact shifted_eq_add hres (hxs x hx).2 h1 s1.neg s2.neg
  have := summary_step (result' := result') hsum hd (fun x hx rs h1 hg => by
    rw [heq x hx]
    refine ⟨rs, readRegions_moving (shiftDomain_spec hr hres) h1, ?_⟩
    refine List.forall₂_same.2 fun g hgm => ?_
    unfold stepRegion
    rw [if_neg (plan_moving h2 _ (hg g hgm))])
  rw [List.map_congr_left (fun x hx => by rw [heq x hx])] at this
  exact this

end

end Verif.Plane.Edit

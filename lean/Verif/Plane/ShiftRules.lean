/-
The rules of a formula, and what a plan says about them.
-/
import Verif.Plane.ShiftBase
import Mathlib.Data.List.Forall2

namespace Verif.Plane.Edit

open Verif.Plane

/-! ### The rule of a reference -/

/-- The projection of a reference, names included (`Reads.visitRef` says the same when it accepts the reference). -/
def ruleOf (env : Env) (anchor : Key) : Ref → Option (Nat × Rule)
  | .name n =>
    match env.name n with
    | some (.cell sheet row col) => some (sheet, .cell (.abs row) (.abs col))
    | some (.range sheet row col sheet' row' col') =>
      if sheet = sheet' then some (sheet, .range (.abs (min row row')) (.abs (max row row')) (.abs (min col col'))
        (.abs (max col col')))
      else none
    | _ => none
  | r => summaryRule env anchor r

theorem ruleOf_of_summary {env : Env} {anchor : Key} {r : Ref} {x : Nat × Rule} (h : summaryRule env anchor r = some x) :
    ruleOf env anchor r = some x := by
  cases r with
  | name n => cases h
  | _ => exact h

/-- The rule of a reference says what the reference denotes. -/
theorem ruleOf_spec {env : Env} (hok : env.Ok) {anchor : Key} {r : Ref} (hw : r.Written) {x : Nat × Rule}
    (h : ruleOf env anchor r = some x) : SameReads env anchor r x ∧ (r.WholeCols → ∃ a b, x.2 = .wholeCols a b) := by
  cases r with
  | other => cases h
  | name n =>
    simp only [ruleOf] at h
    have hn := hok n
    cases hname : env.name n with
    | none => rw [hname] at h; cases h
    | some t =>
      rw [hname] at h hn
      cases t with
      | other => cases h
      | cell sheet row col =>
        dsimp only at h hn
        obtain rfl := Option.some.inj h
        refine ⟨⟨by simp, ?_, by simp, fun p k => ?_⟩, by simp [Ref.WholeCols]⟩
        · exact ⟨fun i hi => by cases hi; exact hn.1, fun i hi => by cases hi; exact hn.2⟩
        · obtain ⟨ks, kr, kc⟩ := k
          simp only [Ref.Denotes, hname, Rule.Reads, AxisProj.at_, Key.mk.injEq]
          omega
      | range sheet row col sheet' row' col' =>
        dsimp only at h hn
        split at h
        · next hs =>
          obtain rfl := Option.some.inj h
          refine ⟨⟨by simp, ?_, by simp, fun p k => ?_⟩, by simp [Ref.WholeCols]⟩
          · refine ⟨fun i hi => ?_, fun i hi => ?_, fun i hi => ?_, fun i hi => ?_⟩ <;> cases hi <;> omega
          · simp only [Ref.Denotes, hname, Rule.Reads, AxisProj.at_, Between]
            omega
        · cases h
  | cell sheet row col ra ca =>
    simp only [ruleOf, summaryRule] at h
    cases hs : sheetOf env anchor.sheet sheet with
    | none => rw [hs] at h; cases h
    | some s =>
      rw [hs] at h
      obtain rfl := Option.some.inj h
      refine ⟨⟨by simp, ?_, by simp, fun p k => ?_⟩, by simp [Ref.WholeCols]⟩
      · exact ⟨axisProjection_fits _ _ hw.1.2, axisProjection_fits _ _ hw.2.2⟩
      simp only [Ref.Denotes, Rule.Reads, hs, axisProjection_at _ _ _ hw.1.1, axisProjection_at _ _ _ hw.2.1,
        Option.some.injEq, eq_comm]
  | range sheet sr sc er ec sra sca era eca =>
    simp only [ruleOf] at h
    unfold summaryRule at h
    obtain ⟨w1, w2, w3, w4⟩ := hw
    split at h
    · next heq => cases heq
    · next heq =>
      cases heq
      cases hs : sheetOf env anchor.sheet sheet with
      | none => rw [hs] at h; cases h
      | some s =>
        rw [hs] at h
        obtain rfl := Option.some.inj h
        refine ⟨⟨by simp, ?_, fun _ _ _ => trivial, fun p k => ?_⟩, fun _ => ⟨_, _, rfl⟩⟩
        · exact ⟨axisProjection_fits _ _ (w2 _ rfl).2, axisProjection_fits _ _ (w4 _ rfl).2⟩
        simp only [Ref.Denotes, Rule.Reads, hs, axisProjection_at _ _ _ (w2 _ rfl).1,
          axisProjection_at _ _ _ (w4 _ rfl).1, Option.some.injEq, Covers, true_and]
        rw [eq_comm]
    · next heq =>
      cases heq
      cases hs : sheetOf env anchor.sheet sheet with
      | none => rw [hs] at h; cases h
      | some s =>
        rw [hs] at h
        obtain rfl := Option.some.inj h
        refine ⟨⟨by simp, ?_, by simp, fun p k => ?_⟩, by simp [Ref.WholeCols]⟩
        · exact ⟨axisProjection_fits _ _ (w1 _ rfl).2, axisProjection_fits _ _ (w3 _ rfl).2,
            axisProjection_fits _ _ (w2 _ rfl).2, axisProjection_fits _ _ (w4 _ rfl).2⟩
        simp only [Ref.Denotes, Rule.Reads, hs, axisProjection_at _ _ _ (w2 _ rfl).1, axisProjection_at _ _ _ (w1 _ rfl).1,
          axisProjection_at _ _ _ (w3 _ rfl).1,
          axisProjection_at _ _ _ (w4 _ rfl).1, Option.some.injEq, Covers]
        rw [eq_comm]
    · cases h

/-! ### Read summaries -/

/-- The dependencies are those that the rules have for the result. -/
structure Summary (result : Region) (xs : List (Nat × Rule)) (deps : List Dependency) : Prop where
  covers : ∀ x ∈ xs, ∃ rs, x.2.readRegions x.1 result = some rs ∧ ∀ g ∈ rs, (⟨g, x.2⟩ : Dependency) ∈ deps
  only : ∀ d ∈ deps, ∃ x ∈ xs, d.rule = x.2 ∧ ∃ rs, x.2.readRegions x.1 result = some rs ∧ d.read ∈ rs

/-- The rules are those of references: no whole results, indexes within `u32`. -/
def RulesOk (xs : List (Nat × Rule)) : Prop := ∀ x ∈ xs, x.2 ≠ .wholeResult ∧ x.2.Fits

theorem summary_of_readSummary {result : Region} {xs : List (Nat × Rule)} {deps : List Dependency}
    (h : readSummary result [] xs = some deps) : Summary result xs deps := by
  obtain ⟨h1, -, h3⟩ := readSummary_spec xs h
  refine ⟨h3, fun d hd => ?_⟩
  rcases h1 d hd with h | h
  · cases h
  · exact h

/-- A cell is a range of one row and one column. -/
theorem cell_readRegion (r c : AxisProj) (sheet : Nat) (result : Region) :
    (Rule.cell r c).readRegion sheet result = (Rule.range r r c c).readRegion sheet result := by
  have : ∀ (a : AxisProj) (lo hi : Nat), rangeSourceExtent a a lo hi = a.sourceExtent lo hi := by
    intro a lo hi
    unfold rangeSourceExtent
    cases a.sourceExtent lo hi with
    | none => rfl
    | some e => simp
  simp only [Rule.readRegion, this]

/-- The bounds of a rule on the two axes. -/
def rowEnds : Rule → Option (AxisProj × AxisProj)
  | .cell r _ => some (r, r)
  | .range a b _ _ => some (a, b)
  | _ => none

def colEnds : Rule → Option (AxisProj × AxisProj)
  | .cell _ c => some (c, c)
  | .range _ _ c d => some (c, d)
  | .wholeCols c d => some (c, d)
  | _ => none

/-- The read regions of a rule, written out. -/
theorem readRegions_shape {rule : Rule} {sheet : Nat} {result : Region} {rs : List Region}
    (h : rule.readRegions sheet result = some rs) :
    ∃ rr rc c d sc, boundedOf result.rows = some rr ∧ boundedOf result.cols = some rc ∧ colEnds rule = some (c, d) ∧
      rangeSourceExtent c d rc.1 rc.2 = some sc ∧
      ((∃ a b sr, rowEnds rule = some (a, b) ∧ rangeSourceExtent a b rr.1 rr.2 = some sr ∧
          rs = [regionOfExtents sheet sr sc]) ∨
        (rule = .wholeCols c d ∧ sc.1 ≤ sc.2 ∧ sc.2 - sc.1 + 1 ≤ 256 ∧
          rs = (List.range (sc.2 + 1 - sc.1)).map fun i => Region.wholeCol sheet (sc.1 + i))) := by
  have affine : ∀ a b c d, (Rule.range a b c d).readRegion sheet result = rs.head? → rs.length = 1 →
      ∃ rr rc sc, boundedOf result.rows = some rr ∧ boundedOf result.cols = some rc ∧
      rangeSourceExtent c d rc.1 rc.2 = some sc ∧ ∃ sr, rangeSourceExtent a b rr.1 rr.2 = some sr ∧
          rs = [regionOfExtents sheet sr sc] := by
    intro a b c d h hl
    obtain ⟨g, rfl⟩ := List.length_eq_one_iff.1 hl
    simp only [Rule.readRegion, List.head?_cons] at h
    cases hb : boundedExtents result with
    | none => rw [hb] at h; cases h
    | some e =>
      obtain ⟨rr, rc⟩ := e
      rw [hb] at h
      dsimp only at h
      obtain ⟨hb1, hb2⟩ := boundedExtents_eq hb
      cases h1 : rangeSourceExtent a b rr.1 rr.2 with
      | none => rw [h1] at h; cases h
      | some sr =>
        rw [h1] at h
        cases h2 : rangeSourceExtent c d rc.1 rc.2 with
        | none => rw [h2] at h; cases h
        | some sc =>
          rw [h2] at h
          exact ⟨rr, rc, sc, hb1, hb2, h2, sr, h1, by rw [← Option.some.inj h]⟩
  cases rule with
  | wholeResult => cases h
  | cell r c =>
    simp only [Rule.readRegions] at h
    cases h1 : (Rule.cell r c).readRegion sheet result with
    | none => rw [h1] at h; cases h
    | some g =>
      rw [h1] at h
      obtain rfl := Option.some.inj h
      rw [cell_readRegion] at h1
      obtain ⟨rr, rc, sc, h2, h3, h4, sr, h5, h6⟩ := affine r r c c h1 rfl
      exact ⟨rr, rc, c, c, sc, h2, h3, rfl, h4, Or.inl ⟨r, r, sr, rfl, h5, h6⟩⟩
  | range a b c d =>
    simp only [Rule.readRegions] at h
    cases h1 : (Rule.range a b c d).readRegion sheet result with
    | none => rw [h1] at h; cases h
    | some g =>
      rw [h1] at h
      obtain rfl := Option.some.inj h
      obtain ⟨rr, rc, sc, h2, h3, h4, sr, h5, h6⟩ := affine a b c d h1 rfl
      exact ⟨rr, rc, c, d, sc, h2, h3, rfl, h4, Or.inl ⟨a, b, sr, rfl, h5, h6⟩⟩
  | wholeCols c d =>
    simp only [Rule.readRegions] at h
    cases hb : boundedExtents result with
    | none => rw [hb] at h; cases h
    | some e =>
      obtain ⟨rr, rc⟩ := e
      rw [hb] at h
      dsimp only at h
      obtain ⟨hb1, hb2⟩ := boundedExtents_eq hb
      cases h2 : rangeSourceExtent c d rc.1 rc.2 with
      | none => rw [h2] at h; cases h
      | some sc =>
        rw [h2] at h
        dsimp only at h
        split at h
        · cases h
        · split at h
          · cases h
          · obtain rfl := Option.some.inj h
            exact ⟨rr, rc, c, d, sc, hb1, hb2, rfl, h2, Or.inr ⟨rfl, by omega, by omega, rfl⟩⟩

theorem rowEnds_fits {rule : Rule} {a b : AxisProj} (h : rowEnds rule = some (a, b)) (hf : rule.Fits) :
    (∀ i, a = .abs i → i ≤ u32Max) ∧ ∀ i, b = .abs i → i ≤ u32Max := by
  cases rule with
  | cell r c => cases h; exact ⟨hf.1, hf.1⟩
  | range a b c d => cases h; exact ⟨hf.1, hf.2.1⟩
  | _ => cases h

theorem colEnds_fits {rule : Rule} {a b : AxisProj} (h : colEnds rule = some (a, b)) (hf : rule.Fits) :
    (∀ i, a = .abs i → i ≤ u32Max) ∧ ∀ i, b = .abs i → i ≤ u32Max := by
  cases rule with
  | cell r c => cases h; exact ⟨hf.2, hf.2⟩
  | range a b c d => cases h; exact ⟨hf.2.2.1, hf.2.2.2⟩
  | wholeCols c d => cases h; exact hf
  | wholeResult => cases h

/-- Both ends of a range lie in its extent. -/
theorem ends_in_extent {a b : AxisProj} {lo hi : Nat} {e : Nat × Nat} (h : rangeSourceExtent a b lo hi = some e)
    (ha : ∀ i, a = .abs i → i ≤ u32Max) (hb : ∀ i, b = .abs i → i ≤ u32Max) (hle : lo ≤ hi) {p : Nat} (h1 : lo ≤ p)
    (h2 : p ≤ hi) : ∀ c, c = a ∨ c = b → ∃ v : Nat, c.at_ p = v ∧ e.1 ≤ v ∧ v ≤ e.2 := by
  obtain ⟨-, -, h3⟩ := rangeSourceExtent_spec h ha hb hle
  rintro c (rfl | rfl)
  · have := h3 p h1 h2 (c.at_ p) (by unfold Between; omega)
    exact ⟨(c.at_ p).toNat, by omega, by omega, by omega⟩
  · have := h3 p h1 h2 (c.at_ p) (by unfold Between; omega)
    exact ⟨(c.at_ p).toNat, by omega, by omega, by omega⟩

/-- The coordinate of a cell on the axis of the operation. -/
def Op.coord (op : Op) (k : Key) : Nat := if op.rows then k.row else k.col

theorem extent_has (e : Nat × Nat) (x : Nat) : (if e.1 = e.2 then AxisRange.point e.1 else .span e.1 e.2).Has x ↔
    e.1 ≤ x ∧ x ≤ e.2 := by
  split
  · rw [has_point]; omega
  · rfl

theorem bounds_row {op : Op} (hr : op.rows = true) {rule : Rule} {b : AxisProj} (h : b ∈ op.bounds rule) :
    ∃ a c, rowEnds rule = some (a, c) ∧ (b = a ∨ b = c) := by
  cases rule with
  | cell r c => simp only [Op.bounds, hr, if_true, List.mem_singleton] at h; exact ⟨r, r, rfl, Or.inl h⟩
  | range a b' c d =>
    simp only [Op.bounds, hr, if_true, List.mem_cons, List.not_mem_nil, or_false] at h
    exact ⟨a, b', rfl, h⟩
  | wholeCols c d => simp [Op.bounds, hr] at h
  | wholeResult => simp [Op.bounds] at h

theorem bounds_col {op : Op} (hr : op.rows = false) {rule : Rule} {b : AxisProj} (h : b ∈ op.bounds rule) :
    ∃ a c, colEnds rule = some (a, c) ∧ (b = a ∨ b = c) := by
  cases rule with
  | cell r c => simp [Op.bounds, hr] at h; exact ⟨c, c, rfl, Or.inl h⟩
  | range a b' c d =>
    simp [Op.bounds, hr] at h
    exact ⟨c, d, rfl, h⟩
  | wholeCols c d =>
    simp [Op.bounds, hr] at h
    exact ⟨c, d, rfl, h⟩
  | wholeResult => simp [Op.bounds] at h

/-- A bound of a reference points into one of its read regions; if it is not a whole-column reference, all bounds point
into the same one. -/
theorem bounds_in_regions {op : Op} {rule : Rule} {sheet : Nat} {result : Region} {rs : List Region} (hres : result.Ok)
    (hf : rule.Fits) (h : rule.readRegions sheet result = some rs) :
    (∀ g ∈ rs, g.sheet = sheet) ∧ rs ≠ [] ∧
    (∀ p : Key, result.Has p → ∀ b ∈ op.bounds rule, ∃ g ∈ rs, ∃ v : Nat, b.at_ (op.coord p) = v ∧ (op.axis g).Has v) ∧
    ((∀ a b, rule ≠ .wholeCols a b) → ∃ g, rs = [g]) := by
  obtain ⟨rr, rc, c, d, sc, h1, h2, h3, h4, h5⟩ := readRegions_shape h
  obtain ⟨q1, q2, q3, q4, q5⟩ := boundedOf_spec h1 hres.1
  obtain ⟨w1, w2, w3, w4, w5⟩ := boundedOf_spec h2 hres.2
  have fc := colEnds_fits h3 hf
  rcases h5 with ⟨a, b, sr, h5, h6, rfl⟩ | ⟨rfl, h5, h6, rfl⟩
  · have fr := rowEnds_fits h5 hf
    refine ⟨fun g hg => by rw [List.mem_singleton.1 hg]; rfl, by simp, fun p hp x hx => ?_, fun _ => ⟨_, rfl⟩⟩
    refine ⟨_, List.mem_singleton.2 rfl, ?_⟩
    cases hr : op.rows with
    | true =>
      obtain ⟨a', c', e1, e2⟩ := bounds_row hr hx
      rw [h5] at e1
      cases e1
      have p1 := (q5 _).1 hp.2.1
      obtain ⟨v, v1, v2⟩ := ends_in_extent h6 fr.1 fr.2 q1 p1.1 p1.2 x e2
      refine ⟨v, by simpa [Op.coord, hr] using v1, ?_⟩
      simp only [Op.axis, hr, if_true, regionOfExtents]
      exact (extent_has _ _).2 v2
    | false =>
      obtain ⟨a', c', e1, e2⟩ := bounds_col hr hx
      rw [h3] at e1
      cases e1
      have p1 := (w5 _).1 hp.2.2
      obtain ⟨v, v1, v2⟩ := ends_in_extent h4 fc.1 fc.2 w1 p1.1 p1.2 x e2
      refine ⟨v, by simpa [Op.coord, hr] using v1, ?_⟩
      simp only [Op.axis, hr, Bool.false_eq_true, if_false, regionOfExtents]
      exact (extent_has _ _).2 v2
  · refine ⟨fun g hg => ?_, ?_, fun p hp x hx => ?_, fun hno => absurd rfl (hno c d)⟩
    · obtain ⟨i, -, rfl⟩ := List.mem_map.1 hg; rfl
    · intro e
      have := congrArg List.length e
      simp at this
      omega
    · cases hr : op.rows with
      | true => obtain ⟨a', c', e1, -⟩ := bounds_row hr hx; cases e1
      | false =>
        obtain ⟨a', c', e1, e2⟩ := bounds_col hr hx
        rw [h3] at e1
        cases e1
        have p1 := (w5 _).1 hp.2.2
        obtain ⟨v, v1, v2⟩ := ends_in_extent h4 fc.1 fc.2 w1 p1.1 p1.2 x e2
        refine ⟨Region.wholeCol sheet v, List.mem_map.2 ⟨v - sc.1, List.mem_range.2 (by omega), ?_⟩, v,
          by simpa [Op.coord, hr] using v1, ?_⟩
        · rw [show sc.1 + (v - sc.1) = v by omega]
        · simp only [Op.axis, hr, Bool.false_eq_true, if_false, Region.wholeCol]
          rfl

/-- Every cell that is read lies in one of the read regions. -/
theorem reads_in_regions {rule : Rule} {sheet : Nat} {result : Region} {rs : List Region} (hres : result.Ok)
    (hf : rule.Fits) (h : rule.readRegions sheet result = some rs) {p k : Key} (hp : result.Has p)
    (hr : rule.Reads sheet p k) : ∃ g ∈ rs, g.Has k := by
  obtain ⟨rr, rc, c, d, sc, h1, h2, h3, h4, h5⟩ := readRegions_shape h
  obtain ⟨q1, q2, q3, q4, q5⟩ := boundedOf_spec h1 hres.1
  obtain ⟨w1, w2, w3, w4, w5⟩ := boundedOf_spec h2 hres.2
  have fc := colEnds_fits h3 hf
  obtain ⟨-, -, H⟩ := rangeSourceExtent_spec h4 fc.1 fc.2 w1
  have p2 := (w5 _).1 hp.2.2
  rcases h5 with ⟨a, b, sr, h5, h6, rfl⟩ | ⟨rfl, h5, h6, rfl⟩
  · have fr := rowEnds_fits h5 hf
    obtain ⟨-, -, G⟩ := rangeSourceExtent_spec h6 fr.1 fr.2 q1
    have p1 := (q5 _).1 hp.2.1
    refine ⟨_, List.mem_singleton.2 rfl, ?_⟩
    rw [regionOfExtents_has]
    cases rule with
    | cell r c =>
      cases h3; cases h5
      obtain ⟨k1, k2, k3⟩ := hr
      have := G _ p1.1 p1.2 k.row (by unfold Between; omega)
      have := H _ p2.1 p2.2 k.col (by unfold Between; omega)
      exact ⟨k1, by omega, by omega⟩
    | range a b c d =>
      cases h3; cases h5
      obtain ⟨k1, k2, k3⟩ := hr
      have := G _ p1.1 p1.2 k.row k2
      have := H _ p2.1 p2.2 k.col k3
      exact ⟨k1, by omega, by omega⟩
    | _ => cases h5
  · have := H _ p2.1 p2.2 k.col hr.2
    refine ⟨Region.wholeCol sheet k.col, List.mem_map.2 ⟨k.col - sc.1, List.mem_range.2 (by omega), ?_⟩, hr.1, trivial, rfl⟩
    rw [show sc.1 + (k.col - sc.1) = k.col by omega]

/-! ### Classification -/

theorem has_bounds {a : AxisRange} {x : Nat} (h : a.Has x) :
    a.bounds.1 ≤ x ∧ (a.bounds.2 < u32Max → x ≤ a.bounds.2) := by
  cases a with
  | point p => rw [has_point] at h; simp only [AxisRange.bounds]; omega
  | span s e => rw [has_span] at h; simp only [AxisRange.bounds]; omega
  | from_ s => rw [has_from] at h; simp only [AxisRange.bounds]; omega
  | «to» e => rw [has_to] at h; simp only [AxisRange.bounds]; omega
  | all => simp only [AxisRange.bounds]; omega

/-- The side of the operation on which a coordinate lies. -/
def Op.Below (op : Op) (x : Nat) : Prop := x < op.at_
def Op.Above (op : Op) (x : Nat) : Prop := op.at_ ≤ x ∧ (op.del = true → op.at_ + op.count ≤ x)

theorem last_eq {op : Op} (hop : op.Fits) : op.last = op.at_ + op.count := by
  unfold Op.last
  have := hop.room
  omega

theorem classifyAxis_side {op : Op} (hop : op.Fits) {a : AxisRange} {x : Nat} (hx : a.Has x) :
    (op.classifyAxis a = .below → op.Below x) ∧ (op.classifyAxis a = .above → op.Above x) ∧
      op.classifyAxis a ≠ .otherSheet := by
  have h1 := has_bounds hx
  have h2 := last_eq hop
  have h3 := hop.room
  unfold Op.classifyAxis Op.Below Op.Above
  cases op.del
  · simp only [Bool.false_eq_true, if_false]
    refine ⟨fun h => ?_, fun h => ?_, ?_⟩
    · split at h
      · omega
      · split at h <;> cases h
    · split at h
      · cases h
      · split at h
        · exact ⟨by omega, by simp⟩
        · cases h
    · split
      · simp
      · split <;> simp
  · simp only [if_true]
    refine ⟨fun h => ?_, fun h => ?_, ?_⟩
    · split at h
      · omega
      · split at h
        · cases h
        · split at h <;> cases h
    · split at h
      · cases h
      · split at h
        · exact ⟨by omega, by omega⟩
        · split at h <;> cases h
    · split
      · simp
      · split
        · simp
        · split <;> simp

theorem classify_sheet {op : Op} (hop : op.Fits) {r : Region} {x : Nat} (hx : (op.axis r).Has x) :
    (op.classify r = .otherSheet ↔ r.sheet ≠ op.sheet) ∧ (op.classify r = .below → r.sheet = op.sheet ∧ op.Below x) ∧
      (op.classify r = .above → r.sheet = op.sheet ∧ op.Above x) := by
  have h := classifyAxis_side hop hx
  unfold Op.classify
  split
  · next hs => exact ⟨by simp [hs], by simp, by simp⟩
  · next hs =>
    simp only [ne_eq, Decidable.not_not] at hs
    exact ⟨by simp [hs, h.2.2], fun e => ⟨hs, h.1 e⟩, fun e => ⟨hs, h.2.1 e⟩⟩

theorem has_axis {op : Op} {r : Region} {k : Key} (h : r.Has k) : (op.axis r).Has (op.coord k) := by
  unfold Op.axis Op.coord
  split
  · exact h.2.1
  · exact h.2.2

theorem moveCoord_below {op : Op} {x : Nat} (h : op.Below x) : op.moveCoord x = some x :=
  (moveCoord_spec _ _ _).2 (Or.inl ⟨h, rfl⟩)

theorem moveCoord_above {op : Op} {x : Nat} (h : op.Above x) : ∃ y : Nat, op.moveCoord x = some y ∧ (y : Int) = x + op.delta := by
  obtain ⟨h1, h2⟩ := h
  unfold Op.delta
  cases hd : op.del
  · exact ⟨x + op.count, (moveCoord_spec _ _ _).2 (Or.inr (Or.inr ⟨h1, hd, rfl⟩)), by simp⟩
  · have := h2 hd
    exact ⟨x - op.count, (moveCoord_spec _ _ _).2 (Or.inr (Or.inl ⟨h1, hd, this, by omega⟩)), by simp; omega⟩

theorem move_some {op : Op} {k : Key} (h : k.sheet ≠ op.sheet ∨ op.Below (op.coord k) ∨ op.Above (op.coord k)) :
    ∃ k', op.move k = some k' := by
  by_cases hs : k.sheet = op.sheet
  · have : ∃ y, op.moveCoord (op.coord k) = some y := by
      rcases h with h | h | h
      · exact absurd hs h
      · exact ⟨_, moveCoord_below h⟩
      · obtain ⟨y, hy, -⟩ := moveCoord_above h; exact ⟨y, hy⟩
    obtain ⟨y, hy⟩ := this
    cases hr : op.rows
    · refine ⟨⟨k.sheet, k.row, y⟩, (move_cols hr hs).2 ⟨rfl, rfl, ?_⟩⟩
      simpa [Op.coord, hr] using hy
    · refine ⟨⟨k.sheet, y, k.col⟩, (move_rows hr hs).2 ⟨rfl, ?_, rfl⟩⟩
      simpa [Op.coord, hr] using hy
  · exact ⟨k, move_other hs⟩

/-- The classifications that a plan other than to demote allows. -/
def Clean (op : Op) (deps : List Dependency) : Prop := ∀ d ∈ deps,
  op.classify d.read = .otherSheet ∨ op.classify d.read = .below ∨ op.classify d.read = .above

/-- What it means for a reference to follow the cells. -/
structure RuleTracks (op : Op) (x x' : Nat × Rule) (p p' : Key) : Prop where
  tracks : Tracks op.move (x.2.Reads x.1 p) (x'.2.Reads x'.1 p')
  noNew : (∀ a b, x.2 ≠ .wholeCols a b) → NoNew op.move (x'.2.Reads x'.1 p')
  kind : (∃ a b, x'.2 = .wholeCols a b) ↔ ∃ a b, x.2 = .wholeCols a b

theorem follows_kind {op : Op} {sheet : Nat} {p p' : Key} {rule rule' : Rule} (h : Follows op sheet p p' rule rule') :
    (∃ a b, rule' = .wholeCols a b) ↔ ∃ a b, rule = .wholeCols a b := by
  have key : ∀ R C, Corr R C rule rule' → ((∃ a b, rule' = .wholeCols a b) ↔ ∃ a b, rule = .wholeCols a b) := by
    intro R C h
    cases rule <;> cases rule' <;> first | (cases h; done) | simp
  unfold Follows at h
  split at h
  · split at h
    · exact key _ _ h
    · exact key _ _ h
  · exact key _ _ h

/-- Coordinates between two that were moved from one side come from that side. -/
theorem preimage {op : Op} {v w v' w' k' : Nat} (hv : op.moveCoord v = some v') (hw : op.moveCoord w = some w')
    (hs : (op.Below v ∧ op.Below w) ∨ (op.Above v ∧ op.Above w)) (hk : Between v' w' k') :
    ∃ k, op.moveCoord k = some k' := by
  unfold Between at hk
  rcases hs with ⟨h1, h2⟩ | ⟨h1, h2⟩
  · rw [moveCoord_below h1] at hv
    rw [moveCoord_below h2] at hw
    cases hv; cases hw
    unfold Op.Below at *
    exact ⟨k', moveCoord_below (by unfold Op.Below; omega)⟩
  · obtain ⟨y, e1, e2⟩ := moveCoord_above h1
    obtain ⟨z, e3, e4⟩ := moveCoord_above h2
    rw [hv] at e1; rw [hw] at e3
    cases e1; cases e3
    obtain ⟨a1, a2⟩ := h1
    obtain ⟨b1, b2⟩ := h2
    unfold Op.delta at e2 e4
    cases hd : op.del
    · rw [hd] at e2 e4
      simp only [Bool.false_eq_true, if_false] at e2 e4
      exact ⟨k' - op.count, (moveCoord_spec _ _ _).2 (Or.inr (Or.inr ⟨by omega, hd, by omega⟩))⟩
    · rw [hd] at e2 e4
      simp only [if_true] at e2 e4
      have := a2 hd
      have := b2 hd
      exact ⟨k' + op.count, (moveCoord_spec _ _ _).2 (Or.inr (Or.inl ⟨by omega, hd, by omega, rfl⟩))⟩

/-- The bounds of the rule, seen from `x`, lie on one side of the operation. -/
def OneSide (op : Op) (rule : Rule) (x : Nat) : Prop :=
  (∀ b ∈ op.bounds rule, ∀ v : Nat, b.at_ x = v → op.Below v) ∨ ∀ b ∈ op.bounds rule, ∀ v : Nat, b.at_ x = v → op.Above v

theorem noNew_of_side {op : Op} {x x' : Nat × Rule} {p p' : Key} (hs : x'.1 = x.1) (h : Follows op x.1 p p' x.2 x'.2)
    (hw : ∀ a b, x.2 ≠ .wholeCols a b) (hside : x.1 = op.sheet → OneSide op x.2 (op.coord p)) :
    NoNew op.move (x'.2.Reads x'.1 p') := by
  intro k' hk'
  rw [hs] at hk'
  by_cases hsh : x.1 = op.sheet
  · replace hside := hside hsh
    have key : ∀ a ∈ op.bounds x.2, ∀ b ∈ op.bounds x.2, ∀ a' b' : AxisProj,
        Hits op (op.coord p) (op.coord p') a a' → Hits op (op.coord p) (op.coord p') b b' →
        Between (a'.at_ (op.coord p')) (b'.at_ (op.coord p')) (op.coord k') →
        ∃ y, op.moveCoord y = some (op.coord k') := by
      rintro a ha b hb a' b' ⟨v, v', q1, q2, q3⟩ ⟨w, w', r1, r2, r3⟩ hbt
      rw [q2, r2] at hbt
      refine preimage q3 r3 ?_ hbt
      rcases hside with hside | hside
      · exact Or.inl ⟨hside a ha v q1, hside b hb w r1⟩
      · exact Or.inr ⟨hside a ha v q1, hside b hb w r1⟩
    clear hside
    obtain ⟨s, rule⟩ := x
    obtain ⟨s', rule'⟩ := x'
    dsimp only at *
    subst hs
    unfold Follows at h
    rw [if_pos hsh] at h
    have hk's : k'.sheet = op.sheet := by
      rw [← hsh]
      cases rule' with
      | cell _ _ => exact hk'.1
      | range _ _ _ _ => exact hk'.1
      | wholeCols _ _ => exact hk'.1
      | wholeResult => cases hk'
    have fin : (∃ y, op.moveCoord y = some (op.coord k')) → ∃ k, op.move k = some k' := by
      rintro ⟨y, hy⟩
      cases hr : op.rows with
      | true =>
        refine ⟨⟨k'.sheet, y, k'.col⟩, (move_rows (k := ⟨k'.sheet, y, k'.col⟩) hr hk's).2 ⟨rfl, ?_, rfl⟩⟩
        simpa [Op.coord, hr] using hy
      | false =>
        refine ⟨⟨k'.sheet, k'.row, y⟩, (move_cols (k := ⟨k'.sheet, k'.row, y⟩) hr hk's).2 ⟨rfl, rfl, ?_⟩⟩
        simpa [Op.coord, hr] using hy
    apply fin
    cases hr : op.rows with
    | true =>
      rw [hr, if_pos rfl] at h
      simp only [Op.coord, hr, if_true, Op.bounds] at key ⊢
      cases rule <;> cases rule' <;> try cases h
      · next r c r' c' h1 h2 =>
        exact key r (by simp) r (by simp) r' r' h1 h1 (by unfold Between; have := hk'.2.1; omega)
      · next a b c d a' b' c' d' h1 h2 =>
        exact key a (by simp) b (by simp) a' b' h1 h2.1 hk'.2.1
      · next c d c' d' h1 h2 => exact absurd rfl (hw c d)
    | false =>
      rw [hr, if_neg (by simp)] at h
      simp only [Op.coord, hr, Bool.false_eq_true, if_false, Op.bounds] at key ⊢
      cases rule <;> cases rule' <;> try cases h
      · next r c r' c' h1 h2 =>
        exact key c (by simp) c (by simp) c' c' h2 h2 (by unfold Between; have := hk'.2.2; omega)
      · next a b c d a' b' c' d' h1 h2 =>
        exact key c (by simp) d (by simp) c' d' h2.2.1 h2.2.2 hk'.2.2
      · next c d c' d' h1 h2 => exact absurd rfl (hw c d)
  · refine ⟨k', move_other ?_⟩
    have : k'.sheet = x.1 := by
      obtain ⟨s', rule'⟩ := x'
      cases rule' with
      | cell _ _ => exact hk'.1
      | range _ _ _ _ => exact hk'.1
      | wholeCols _ _ => exact hk'.1
      | wholeResult => cases hk'
    rw [this]; exact hsh

/-- A rule whose bounds follow tracks the cells, when no read region is cut. -/
theorem tracks_of_follows {op : Op} (hop : op.Fits) {result : Region} {xs : List (Nat × Rule)} {deps : List Dependency}
    (hres : result.Ok) (hsum : Summary result xs deps) (hxs : RulesOk xs) (hc : Clean op deps) {x x' : Nat × Rule}
    (hx : x ∈ xs) {p p' : Key} (hp : result.Has p) (hs : x'.1 = x.1) (h : Follows op x.1 p p' x.2 x'.2) :
    RuleTracks op x x' p p' := by
  obtain ⟨rs, hrs, hdep⟩ := hsum.covers x hx
  obtain ⟨hno, hf⟩ := hxs x hx
  obtain ⟨b1, b2, b3, b4⟩ := bounds_in_regions (op := op) hres hf hrs
  refine ⟨⟨fun k k' hk => ?_, fun k hk => ?_⟩, fun hw k' hk' => ?_, follows_kind h⟩
  · rw [hs]; exact follows_same h hk
  · obtain ⟨g, hg, hgk⟩ := reads_in_regions hres hf hrs hp hk
    have hcl := classify_sheet hop (has_axis (op := op) hgk)
    refine move_some ?_
    rcases hc _ (hdep g hg) with h1 | h1 | h1
    · left; rw [hgk.1]; exact hcl.1.1 h1
    · exact Or.inr (Or.inl (hcl.2.1 h1).2)
    · exact Or.inr (Or.inr (hcl.2.2 h1).2)
  · refine noNew_of_side hs h hw (fun hsh => ?_) k' hk'
    · obtain ⟨g, hg⟩ := b4 hw
      have hb : ∀ b ∈ op.bounds x.2, ∃ v : Nat, b.at_ (op.coord p) = v ∧ (op.axis g).Has v := by
        intro b hb
        obtain ⟨g', hg', h'⟩ := b3 p hp b hb
        rw [hg] at hg'
        rw [List.mem_singleton.1 hg'] at h'
        exact h'
      have hside : OneSide op x.2 (op.coord p) := by
        have hg' : g ∈ rs := by rw [hg]; exact List.mem_singleton.2 rfl
        rcases hc _ (hdep g hg') with h1 | h1 | h1
        · left
          intro b hb' v hv
          obtain ⟨w, -, hw⟩ := hb b hb'
          exact absurd (by rw [b1 g hg']; exact hsh) ((classify_sheet hop hw).1.1 h1)
        · left
          intro b hb' v hv
          obtain ⟨w, e, hw⟩ := hb b hb'
          have : v = w := by omega
          subst this
          exact ((classify_sheet hop hw).2.1 h1).2
        · right
          intro b hb' v hv
          obtain ⟨w, e, hw⟩ := hb b hb'
          have : v = w := by omega
          subst this
          exact ((classify_sheet hop hw).2.2 h1).2
      exact hside

end Verif.Plane.Edit

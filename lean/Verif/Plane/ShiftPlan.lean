/-
What the plans say about the reads, and rules under the shift that changes only origins.
-/
import Verif.Plane.ShiftRules

namespace Verif.Plane.Edit

open Verif.Plane

/-! ### Rules seen from another origin -/

/-- A bound with its offset changed, without the saturation of `shiftProj`. -/
def addProj (b : AxisProj) (d : Int) : AxisProj :=
  match b with
  | .rel o => .rel (o + d)
  | .abs i => .abs i

def addRule (rule : Rule) (dr dc : Int) : Rule :=
  match rule with
  | .cell r c => .cell (addProj r dr) (addProj c dc)
  | .range a b c d => .range (addProj a dr) (addProj b dr) (addProj c dc) (addProj d dc)
  | .wholeCols c d => .wholeCols (addProj c dc) (addProj d dc)
  | .wholeResult => .wholeResult

theorem addProj_zero (b : AxisProj) : addProj b 0 = b := by cases b <;> simp [addProj]

theorem addRule_zero (rule : Rule) : addRule rule 0 0 = rule := by cases rule <;> simp [addRule, addProj_zero]

theorem shiftProj_small {b : AxisProj} {d : Int} (hb : ∀ o, b = .rel o → SmallOffset o) (hd : SmallOffset d) :
    Rule.shiftProj b d = addProj b d := by
  cases b with
  | abs i => rfl
  | rel o =>
    have := hb o rfl
    unfold SmallOffset u32Max at *
    simp only [Rule.shiftProj, addProj, i64Min, i64Max, AxisProj.rel.injEq]
    omega

/-- Offsets of a rule that has read regions are small. -/
theorem ends_small {a b : AxisProj} {lo hi : Nat} {e : Nat × Nat} (h : rangeSourceExtent a b lo hi = some e)
    (ha : ∀ i, a = .abs i → i ≤ u32Max) (hb : ∀ i, b = .abs i → i ≤ u32Max) (hle : lo ≤ hi) (hhi : hi ≤ u32Max) :
    ∀ c, c = a ∨ c = b → ∀ o, c = .rel o → SmallOffset o := by
  intro c hc o ho
  obtain ⟨v, h1, h2, h3⟩ := ends_in_extent h ha hb hle (Nat.le_refl lo) hle c hc
  obtain ⟨-, h4, -⟩ := rangeSourceExtent_spec h ha hb hle
  subst ho
  simp only [AxisProj.at_] at h1
  unfold SmallOffset
  omega

theorem shifted_eq_add {rule : Rule} {sheet : Nat} {result : Region} {rs : List Region} (hres : result.Ok)
    (hf : rule.Fits) (h : rule.readRegions sheet result = some rs) {dr dc : Int} (h1 : SmallOffset dr)
    (h2 : SmallOffset dc) : rule.shifted dr dc = addRule rule dr dc := by
  unfold Rule.shifted
  split
  · next e => rw [e.1, e.2, addRule_zero]
  · obtain ⟨rr, rc, c, d, sc, h3, h4, h5, h6, h7⟩ := readRegions_shape h
    obtain ⟨q1, q2, -⟩ := boundedOf_spec h3 hres.1
    obtain ⟨w1, w2, -⟩ := boundedOf_spec h4 hres.2
    have fc := colEnds_fits h5 hf
    have sc := ends_small h6 fc.1 fc.2 w1 w2
    rcases h7 with ⟨a, b, sr, h8, h9, -⟩ | ⟨rfl, -⟩
    · have fr := rowEnds_fits h8 hf
      have sr := ends_small h9 fr.1 fr.2 q1 q2
      cases rule with
      | cell r c =>
        cases h5; cases h8
        simp only [addRule, shiftProj_small (sr _ (Or.inl rfl)) h1, shiftProj_small (sc _ (Or.inl rfl)) h2]
      | range a b c d =>
        cases h5; cases h8
        simp only [addRule, shiftProj_small (sr _ (Or.inl rfl)) h1, shiftProj_small (sc _ (Or.inl rfl)) h2,
          shiftProj_small (sr _ (Or.inr rfl)) h1, shiftProj_small (sc _ (Or.inr rfl)) h2]
      | _ => cases h8
    · simp only [addRule, shiftProj_small (sc _ (Or.inl rfl)) h2, shiftProj_small (sc _ (Or.inr rfl)) h2]

/-- The axis of the operation gets `d`, the other nothing. -/
theorem follows_add {op : Op} {sheet : Nat} {p p' : Key} {rule : Rule} {d : Int} (hno : rule ≠ .wholeResult)
    (hother : if op.rows then p'.col = p.col else p'.row = p.row)
    (hb : ∀ b ∈ op.bounds rule, if sheet = op.sheet then Hits op (op.coord p) (op.coord p') b (addProj b d)
      else Stays (op.coord p) (op.coord p') b (addProj b d)) :
    Follows op sheet p p' rule (addRule rule (if op.rows then d else 0) (if op.rows then 0 else d)) := by
  unfold Follows
  cases hr : op.rows with
  | true =>
    simp only [hr, if_true, Op.coord] at hother hb ⊢
    have stay : ∀ b, Stays p.col p'.col b b := fun b => by unfold Stays; rw [hother]
    split
    · next hs =>
      simp only [hs, if_true] at hb
      cases rule with
      | cell r c =>
        simp only [Op.bounds, hr, if_true] at hb
        simp only [addRule, addProj_zero]
        exact ⟨hb r (by simp), stay c⟩
      | range a b c d =>
        simp only [Op.bounds, hr, if_true] at hb
        simp only [addRule, addProj_zero]
        exact ⟨hb a (by simp), hb b (by simp), stay c, stay d⟩
      | wholeCols c d => simp only [addRule, addProj_zero]; exact ⟨stay c, stay d⟩
      | wholeResult => exact absurd rfl hno
    · next hs =>
      simp only [hs, if_false] at hb
      cases rule with
      | cell r c =>
        simp only [Op.bounds, hr, if_true] at hb
        simp only [addRule, addProj_zero]
        exact ⟨hb r (by simp), stay c⟩
      | range a b c d =>
        simp only [Op.bounds, hr, if_true] at hb
        simp only [addRule, addProj_zero]
        exact ⟨hb a (by simp), hb b (by simp), stay c, stay d⟩
      | wholeCols c d => simp only [addRule, addProj_zero]; exact ⟨stay c, stay d⟩
      | wholeResult => exact absurd rfl hno
  | false =>
    simp only [hr, Bool.false_eq_true, if_false, Op.coord] at hother hb ⊢
    have stay : ∀ b, Stays p.row p'.row b b := fun b => by unfold Stays; rw [hother]
    split
    · next hs =>
      simp only [hs, if_true] at hb
      cases rule with
      | cell r c =>
        simp only [Op.bounds, hr, Bool.false_eq_true, if_false] at hb
        simp only [addRule, addProj_zero]
        exact ⟨stay r, hb c (by simp)⟩
      | range a b c d =>
        simp only [Op.bounds, hr, Bool.false_eq_true, if_false] at hb
        simp only [addRule, addProj_zero]
        exact ⟨stay a, stay b, hb c (by simp), hb d (by simp)⟩
      | wholeCols c d =>
        simp only [Op.bounds, hr, Bool.false_eq_true, if_false] at hb
        simp only [addRule]
        exact ⟨hb c (by simp), hb d (by simp)⟩
      | wholeResult => exact absurd rfl hno
    · next hs =>
      simp only [hs, if_false] at hb
      cases rule with
      | cell r c =>
        simp only [Op.bounds, hr, Bool.false_eq_true, if_false] at hb
        simp only [addRule, addProj_zero]
        exact ⟨stay r, hb c (by simp)⟩
      | range a b c d =>
        simp only [Op.bounds, hr, Bool.false_eq_true, if_false] at hb
        simp only [addRule, addProj_zero]
        exact ⟨stay a, stay b, hb c (by simp), hb d (by simp)⟩
      | wholeCols c d =>
        simp only [Op.bounds, hr, Bool.false_eq_true, if_false] at hb
        simp only [addRule]
        exact ⟨hb c (by simp), hb d (by simp)⟩
      | wholeResult => exact absurd rfl hno

/-! ### What a plan says -/

/-- A rule has bounds on the axis, or is said to be relative. -/
theorem some_kind (op : Op) (rule : Rule) : op.hasRelative rule = true ∨ op.hasAbsolute rule = true := by
  have : ∀ b : AxisProj, isAbsolute b = true ∨ isAbsolute b = false := fun b => by cases isAbsolute b <;> simp
  cases rule with
  | cell r c =>
    cases hr : op.rows <;> simp only [Op.hasRelative, Op.hasAbsolute, Op.bounds, hr]
    · rcases this c with h | h <;> simp [h]
    · rcases this r with h | h <;> simp [h]
  | range a b c d =>
    cases hr : op.rows <;> simp only [Op.hasRelative, Op.hasAbsolute, Op.bounds, hr]
    · rcases this c with h | h <;> simp [h]
    · rcases this a with h | h <;> simp [h]
  | wholeCols c d =>
    cases hr : op.rows <;> simp only [Op.hasRelative, Op.hasAbsolute, Op.bounds, hr]
    · rcases this c with h | h <;> simp [h]
    · simp
  | wholeResult => left; rfl

theorem not_relative {op : Op} {rule : Rule} (h : op.hasRelative rule = false) :
    rule ≠ .wholeResult ∧ ∀ b ∈ op.bounds rule, ∃ i, b = .abs i := by
  refine ⟨fun e => (by rw [e] at h; cases h), fun b hb => ?_⟩
  have : isAbsolute b = true := by
    have key : ((op.bounds rule).any fun b => !isAbsolute b) = false := by
      cases rule with
      | wholeCols c d =>
        simp only [Op.hasRelative] at h
        split at h
        · cases h
        · exact h
      | wholeResult => cases h
      | _ => exact h
    simp only [List.any_eq_false, Bool.not_eq_true', Bool.not_eq_false] at key
    exact key b hb
  cases b with
  | abs i => exact ⟨i, rfl⟩
  | rel o => cases this

theorem not_absolute {op : Op} {rule : Rule} (h : op.hasAbsolute rule = false) : ∀ b ∈ op.bounds rule, ∃ o, b = .rel o := by
  intro b hb
  simp only [Op.hasAbsolute, List.any_eq_false, Bool.not_eq_true] at h
  have := h b hb
  cases b with
  | rel o => exact ⟨o, rfl⟩
  | abs i => cases this

/-- Of a plan that leaves or shifts the span. -/
theorem clean_of_plan {op : Op} {rs : Bool} {deps : List Dependency} (h : classifyReads op rs deps ≠ .demote) :
    Clean op deps := by
  intro d hd
  unfold classifyReads at h
  split at h
  · exact absurd rfl h
  · next hn =>
    simp only [List.any_eq_true, Bool.or_eq_true, decide_eq_true_eq, not_exists, not_and, not_or] at hn
    have := hn d hd
    cases hc : op.classify d.read <;> simp_all

theorem plan_noOp {op : Op} {rs : Bool} {deps : List Dependency} (h : classifyReads op rs deps = .noOp) :
    rs = false ∧ ∀ d ∈ deps, op.classify d.read ≠ .above := by
  unfold classifyReads at h
  split at h
  · cases h
  · dsimp only at h
    split at h
    · next hrs =>
      refine ⟨by simpa using hrs, fun d hd ha => ?_⟩
      split at h
      · cases h
      · next hn =>
        simp only [Bool.or_eq_true, not_or, Op.displacedAbsolute, List.any_eq_true, Bool.and_eq_true, decide_eq_true_eq,
          not_exists, not_and] at hn
        rcases some_kind op d.rule with h | h
        · exact hn.1 d hd ha h
        · exact hn.2 d hd ha h
    · split at h
      · cases h
      · split at h
        · cases h
        · split at h <;> cases h

theorem plan_moving {op : Op} {rs : Bool} {deps : List Dependency} (h : classifyReads op rs deps = .shift true false) :
    ∀ d ∈ deps, op.classify d.read ≠ .above := by
  intro d hd ha
  unfold classifyReads at h
  split at h
  · cases h
  · dsimp only at h
    split at h
    · split at h <;> cases h
    · split at h
      · cases h
      · next h1 =>
        split at h
        · cases h
        · split at h
          · cases h
          · next h2 =>
            simp only [Op.displacedAbsolute, List.any_eq_true, Bool.and_eq_true, decide_eq_true_eq, not_exists, not_and] at h1 h2
            rcases some_kind op d.rule with h | h
            · exact h2 d hd ha h
            · exact h1 d hd ha h

theorem plan_pinned {op : Op} {rs : Bool} {deps : List Dependency} (h : classifyReads op rs deps = .shift false false) :
    ∀ d ∈ deps, (op.classify d.read = .above → op.hasAbsolute d.rule = false) ∧
      (op.classify d.read ≠ .above → op.hasRelative d.rule = false) := by
  intro d hd
  unfold classifyReads at h
  split at h
  · cases h
  · dsimp only at h
    split at h
    · split at h <;> cases h
    · split at h
      · cases h
      · next h1 =>
        split at h
        · cases h
        · next h3 =>
          split at h
          · next h2 =>
            simp only [h2, Bool.true_and] at h3
            simp only [Op.displacedAbsolute, List.any_eq_true, Bool.and_eq_true, decide_eq_true_eq, not_exists, not_and,
              Bool.not_eq_true] at h1 h3
            exact ⟨fun ha => h1 d hd ha, fun ha => h3 d hd ha⟩
          · cases h

theorem plan_no_other {op : Op} {rs : Bool} {deps : List Dependency} {rw_ : Bool}
    (h : classifyReads op rs deps = .shift false rw_) : rw_ = false := by
  unfold classifyReads at h
  split at h
  · cases h
  · dsimp only at h
    split at h
    · split at h <;> cases h
    · split at h
      · cases h
      · split at h
        · cases h
        · split at h
          · cases h; rfl
          · cases h

theorem classifyReads_false {op : Op} {deps : List Dependency} {a b : Bool} : classifyReads op false deps ≠ .shift a b := by
  intro h
  unfold classifyReads at h
  split at h
  · cases h
  · simp only [Bool.not_false, if_true] at h
    split at h <;> cases h

/-- The span is left as it is: its cells are not moved. -/
theorem span_noOp {op : Op} (hop : op.Fits) {result : Region} {deps : List Dependency}
    (h : classifySpan op result deps = .noOp) :
    Clean op deps ∧ (∀ d ∈ deps, op.classify d.read ≠ .above) ∧ ∀ p : Key, result.Has p → op.move p = some p := by
  unfold classifySpan at h
  have stay : op.classify result = .otherSheet ∨ op.classify result = .below → ∀ p : Key, result.Has p → op.move p = some p := by
    intro hc p hp
    have := classify_sheet hop (has_axis (op := op) hp)
    rcases hc with hc | hc
    · exact move_other (by rw [hp.1]; exact this.1.1 hc)
    · obtain ⟨h1, h2⟩ := this.2.1 hc
      have hs : p.sheet = op.sheet := by rw [hp.1]; exact h1
      have := moveCoord_below h2
      cases hr : op.rows
      · exact (move_cols hr hs).2 ⟨rfl, rfl, by simpa [Op.coord, hr] using this⟩
      · exact (move_rows hr hs).2 ⟨rfl, by simpa [Op.coord, hr] using this, rfl⟩
  cases hc : op.classify result with
  | contained => rw [hc] at h; cases h
  | straddles => rw [hc] at h; dsimp only at h; split at h <;> cases h
  | above =>
    rw [hc] at h
    have := (plan_noOp h).1
    simp only [ne_eq, decide_not, Bool.not_eq_false', decide_eq_true_eq] at this
    have := hop.pos
    omega
  | otherSheet =>
    rw [hc] at h
    dsimp only at h
    exact ⟨clean_of_plan (by rw [h]; simp), (plan_noOp h).2, stay (Or.inl hc)⟩
  | below =>
    rw [hc] at h
    dsimp only at h
    exact ⟨clean_of_plan (by rw [h]; simp), (plan_noOp h).2, stay (Or.inr hc)⟩

/-- The cells of a span that is shifted move by the difference. -/
structure Moves (op : Op) (p p' : Key) : Prop where
  sheet : p.sheet = op.sheet
  move : op.move p = some p'
  row : (p'.row : Int) = p.row + op.rowDelta
  col : (p'.col : Int) = p.col + op.colDelta

theorem Moves.coord {op : Op} {p p' : Key} (h : Moves op p p') : (op.coord p' : Int) = op.coord p + op.delta := by
  have h1 := h.row
  have h2 := h.col
  unfold Op.rowDelta at h1
  unfold Op.colDelta at h2
  unfold Op.coord
  split
  · next hr => rw [if_pos hr] at h1; exact h1
  · next hr => rw [if_neg hr] at h2; exact h2

theorem Moves.other {op : Op} {p p' : Key} (h : Moves op p p') : if op.rows then p'.col = p.col else p'.row = p.row := by
  have h1 := h.row
  have h2 := h.col
  unfold Op.rowDelta at h1
  unfold Op.colDelta at h2
  split
  · next hr => rw [if_pos hr] at h2; omega
  · next hr => rw [if_neg hr] at h1; omega

theorem moves_of_above {op : Op} (hop : op.Fits) {result : Region} (hc : op.classify result = .above) {p : Key}
    (hp : result.Has p) : ∃ p', Moves op p p' := by
  have := classify_sheet hop (has_axis (op := op) hp)
  obtain ⟨h1, h2⟩ := this.2.2 hc
  have hs : p.sheet = op.sheet := by rw [hp.1]; exact h1
  obtain ⟨y, h3, h4⟩ := moveCoord_above h2
  cases hr : op.rows
  · have h5 : op.coord p = p.col := by simp [Op.coord, hr]
    rw [h5] at h3 h4
    refine ⟨⟨p.sheet, p.row, y⟩, hs, (move_cols hr hs).2 ⟨rfl, rfl, h3⟩, ?_, ?_⟩
    · simp [Op.rowDelta, hr]
    · simp only [Op.colDelta, hr, Bool.false_eq_true, if_false]; exact h4
  · have h5 : op.coord p = p.row := by simp [Op.coord, hr]
    rw [h5] at h3 h4
    refine ⟨⟨p.sheet, y, p.col⟩, hs, (move_rows hr hs).2 ⟨rfl, h3, rfl⟩, ?_, ?_⟩
    · simp only [Op.rowDelta, hr, if_true]; exact h4
    · simp [Op.colDelta, hr]

theorem span_shift {op : Op} {result : Region} {deps : List Dependency} {a b : Bool}
    (h : classifySpan op result deps = .shift a b) :
    op.classify result = .above ∧ ∃ rs, classifyReads op rs deps = .shift a b := by
  unfold classifySpan at h
  cases hc : op.classify result with
  | contained => rw [hc] at h; cases h
  | straddles => rw [hc] at h; dsimp only at h; split at h <;> cases h
  | above => rw [hc] at h; exact ⟨rfl, _, h⟩
  | otherSheet => rw [hc] at h; exact absurd h classifyReads_false
  | below => rw [hc] at h; exact absurd h classifyReads_false

/-! ### The rules follow -/

section
variable {op : Op} {result : Region} {xs : List (Nat × Rule)} {deps : List Dependency}

/-- A bound, the dependency it points into, and its side. -/
theorem bound_side (hop : op.Fits) (hres : result.Ok) (hsum : Summary result xs deps) (hxs : RulesOk xs)
    (hc : Clean op deps) {x : Nat × Rule} (hx : x ∈ xs) {p : Key} (hp : result.Has p) {b : AxisProj}
    (hb : b ∈ op.bounds x.2) : ∃ d ∈ deps, d.rule = x.2 ∧ ∃ v : Nat, b.at_ (op.coord p) = v ∧
      ((op.classify d.read = .otherSheet ∧ x.1 ≠ op.sheet) ∨ (op.classify d.read = .below ∧ x.1 = op.sheet ∧ op.Below v) ∨
        (op.classify d.read = .above ∧ x.1 = op.sheet ∧ op.Above v)) := by
  obtain ⟨rs, hrs, hdep⟩ := hsum.covers x hx
  obtain ⟨hno, hf⟩ := hxs x hx
  obtain ⟨b1, b2, b3, b4⟩ := bounds_in_regions (op := op) hres hf hrs
  obtain ⟨g, hg, v, hv, hgv⟩ := b3 p hp b hb
  have hcl := classify_sheet hop hgv
  rw [b1 g hg] at hcl
  refine ⟨_, hdep g hg, rfl, v, hv, ?_⟩
  rcases hc _ (hdep g hg) with h | h | h
  · exact Or.inl ⟨h, hcl.1.1 h⟩
  · exact Or.inr (Or.inl ⟨h, hcl.2.1 h⟩)
  · exact Or.inr (Or.inr ⟨h, hcl.2.2 h⟩)

theorem follows_noOp (hop : op.Fits) (hres : result.Ok) (hsum : Summary result xs deps) (hxs : RulesOk xs)
    (h : classifySpan op result deps = .noOp) {x : Nat × Rule} (hx : x ∈ xs) {p : Key} (hp : result.Has p) :
    Follows op x.1 p p x.2 x.2 := by
  obtain ⟨h1, h2, h3⟩ := span_noOp hop h
  have := follows_add (op := op) (sheet := x.1) (p := p) (p' := p) (d := 0) (hxs x hx).1 (by split <;> rfl) (fun b hb => by
    rw [addProj_zero]
    obtain ⟨d, hd, hdr, v, hv, hside⟩ := bound_side hop hres hsum hxs h1 hx hp hb
    rcases hside with ⟨s1, s2⟩ | ⟨s1, s2, s3⟩ | ⟨s1, -⟩
    · rw [if_neg s2]; rfl
    · rw [if_pos s2]; exact ⟨v, v, hv, hv, moveCoord_below s3⟩
    · exact absurd s1 (h2 d hd))
  simpa [addRule_zero] using this

/-- The origin moves along with the result: nothing that is read moves. -/
theorem follows_moving (hop : op.Fits) (hres : result.Ok) (hsum : Summary result xs deps) (hxs : RulesOk xs)
    (h : classifySpan op result deps = .shift true false) {x : Nat × Rule} (hx : x ∈ xs) {p p' : Key} (hp : result.Has p)
    (hm : Moves op p p') : Follows op x.1 p p' x.2 (addRule x.2 (-op.rowDelta) (-op.colDelta)) := by
  obtain ⟨h1, rs, h2⟩ := span_shift h
  have hc := clean_of_plan (op := op) (rs := rs) (deps := deps) (by rw [h2]; simp)
  have hco := hm.coord
  have at_eq : ∀ b : AxisProj, (addProj b (-op.delta)).at_ (op.coord p') = b.at_ (op.coord p) := by
    intro b
    cases b with
    | abs i => rfl
    | rel o => simp only [addProj, AxisProj.at_]; omega
  have := follows_add (op := op) (sheet := x.1) (p := p) (p' := p') (d := -op.delta) (hxs x hx).1 hm.other (fun b hb => by
    obtain ⟨d, hd, hdr, v, hv, hside⟩ := bound_side hop hres hsum hxs hc hx hp hb
    rcases hside with ⟨s1, s2⟩ | ⟨s1, s2, s3⟩ | ⟨s1, -⟩
    · rw [if_neg s2]; exact at_eq b
    · rw [if_pos s2]; exact ⟨v, v, hv, by rw [at_eq, hv], moveCoord_below s3⟩
    · exact absurd s1 (plan_moving h2 d hd))
  have e : (if op.rows then -op.delta else 0) = -op.rowDelta ∧ (if op.rows then 0 else -op.delta) = -op.colDelta := by
    unfold Op.rowDelta Op.colDelta
    split <;> simp
  rw [e.1, e.2] at this
  exact this

/-- The formula stays as it is: what it reads by relative reference moves with it, what it reads by absolute reference
stays. -/
theorem follows_pinned (hop : op.Fits) (hres : result.Ok) (hsum : Summary result xs deps) (hxs : RulesOk xs)
    (h : classifySpan op result deps = .shift false false) {x : Nat × Rule} (hx : x ∈ xs) {p p' : Key} (hp : result.Has p)
    (hm : Moves op p p') : Follows op x.1 p p' x.2 x.2 := by
  obtain ⟨h1, rs, h2⟩ := span_shift h
  have hc := clean_of_plan (op := op) (rs := rs) (deps := deps) (by rw [h2]; simp)
  have hco := hm.coord
  have := follows_add (op := op) (sheet := x.1) (p := p) (p' := p') (d := 0) (hxs x hx).1 hm.other (fun b hb => by
    rw [addProj_zero]
    obtain ⟨d, hd, hdr, v, hv, hside⟩ := bound_side hop hres hsum hxs hc hx hp hb
    obtain ⟨k1, k2⟩ := plan_pinned h2 d hd
    rw [hdr] at k1 k2
    rcases hside with ⟨s1, s2⟩ | ⟨s1, s2, s3⟩ | ⟨s1, s2, s3⟩
    · rw [if_neg s2]
      obtain ⟨i, rfl⟩ := (not_relative (k2 (by rw [s1]; simp))).2 b hb
      rfl
    · rw [if_pos s2]
      obtain ⟨i, rfl⟩ := (not_relative (k2 (by rw [s1]; simp))).2 b hb
      exact ⟨v, v, hv, hv, moveCoord_below s3⟩
    · rw [if_pos s2]
      obtain ⟨o, rfl⟩ := not_absolute (k1 s1) b hb
      obtain ⟨y, y1, y2⟩ := moveCoord_above s3
      refine ⟨v, y, hv, ?_, y1⟩
      simp only [AxisProj.at_] at hv ⊢
      omega)
  simpa [addRule_zero] using this

end

end Verif.Plane.Edit

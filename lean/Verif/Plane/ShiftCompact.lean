/-
Spans that lose some of their cells to a deletion (property C61).
-/
import Verif.Plane.ShiftRun

namespace Verif.Plane.Edit

open Verif.Plane

/-! ### The cells that are left -/

theorem move_coord {op : Op} {p p' : Key} (hs : p.sheet = op.sheet) (h : op.move p = some p') :
    op.moveCoord (op.coord p) = some (op.coord p') ∧ if op.rows then p'.col = p.col else p'.row = p.row := by
  unfold Op.coord
  cases hr : op.rows with
  | true =>
    obtain ⟨-, h1, h2⟩ := (move_rows hr hs).1 h
    exact ⟨h1, h2⟩
  | false =>
    obtain ⟨-, h1, h2⟩ := (move_cols hr hs).1 h
    exact ⟨h2, h1⟩

/-- After a deletion every cell comes from somewhere. -/
theorem move_onto {op : Op} (hd : op.del = true) (k' : Key) : ∃ k, op.move k = some k' := by
  have one : ∀ x', ∃ x, op.moveCoord x = some x' := by
    intro x'
    by_cases h : x' < op.at_
    · exact ⟨x', moveCoord_below h⟩
    · exact ⟨x' + op.count, (moveCoord_spec _ _ _).2 (Or.inr (Or.inl ⟨by omega, hd, by omega, rfl⟩))⟩
  by_cases hs : k'.sheet = op.sheet
  · cases hr : op.rows with
    | true =>
      obtain ⟨y, hy⟩ := one k'.row
      exact ⟨⟨k'.sheet, y, k'.col⟩, (move_rows (k := ⟨k'.sheet, y, k'.col⟩) hr hs).2 ⟨rfl, hy, rfl⟩⟩
    | false =>
      obtain ⟨y, hy⟩ := one k'.col
      exact ⟨⟨k'.sheet, k'.row, y⟩, (move_cols (k := ⟨k'.sheet, k'.row, y⟩) hr hs).2 ⟨rfl, rfl, hy⟩⟩
  · exact ⟨k', move_other hs⟩

theorem compactRange_spec {op : Op} (hop : op.Fits) (hd : op.del = true) {a a' : AxisRange} (ha : a.Ok)
    (hc : op.classifyAxis a = .straddles) (h : compactRange a op.at_ op.count = some a') :
    a'.Ok ∧ ∀ x x', op.moveCoord x = some x' → (a'.Has x' ↔ a.Has x) := by
  have hl := last_eq hop
  have hrm := hop.room
  have hlast : min u32Max (op.at_ + op.count) = op.at_ + op.count := by omega
  unfold Op.classifyAxis at hc
  rw [if_pos hd] at hc
  split at hc
  · cases hc
  · next h1 =>
    split at hc
    · cases hc
    · next h2 =>
      split at hc
      · cases hc
      · next h3 =>
        clear hc
        rw [hl] at h2 h3
        cases a with
        | from_ s => cases h
        | «to» e => cases h
        | all =>
          obtain rfl := Option.some.inj h
          exact ⟨trivial, fun x x' _ => Iff.rfl⟩
        | point q => simp only [AxisRange.bounds] at h1 h2 h3; omega
        | span s e =>
          simp only [AxisRange.bounds] at h1 h2 h3
          simp only [compactRange, compactAxis, hlast] at h
          have hse := ha.1
          rw [if_neg (by omega)] at h
          split at h
          · next c1 =>
            split at h
            · next c2 =>
              rw [if_pos (by omega)] at h
              obtain rfl := Option.some.inj h
              refine ⟨⟨by dsimp only; omega, by have := ha.2; dsimp only; omega⟩, fun x x' hx => ?_⟩
              rw [moveCoord_spec] at hx
              rw [has_span, has_span]
              simp only [hd, Bool.true_eq_false, false_and, and_false, or_false, true_and] at hx
              dsimp only
              omega
            · next c2 =>
              rw [if_pos (by omega)] at h
              obtain rfl := Option.some.inj h
              refine ⟨⟨by dsimp only; omega, by have := ha.2; dsimp only; omega⟩, fun x x' hx => ?_⟩
              rw [moveCoord_spec] at hx
              rw [has_span, has_span]
              simp only [hd, Bool.true_eq_false, false_and, and_false, or_false, true_and] at hx
              dsimp only
              omega
          · next c1 =>
            rw [if_pos (by omega), if_pos (by omega)] at h
            obtain rfl := Option.some.inj h
            refine ⟨⟨by dsimp only; omega, by have := ha.2; dsimp only; omega⟩, fun x x' hx => ?_⟩
            rw [moveCoord_spec] at hx
            rw [has_span, has_span]
            simp only [hd, Bool.true_eq_false, false_and, and_false, or_false, true_and] at hx
            dsimp only
            omega

theorem compactRegion_spec {op : Op} (hop : op.Fits) (hd : op.del = true) {r r' : Region} (hr : r.Ok)
    (hc : op.classify r = .straddles) (h : compactRegion op r = some r') :
    r.sheet = op.sheet ∧ r'.Ok ∧ r'.sheet = r.sheet ∧ ∀ p p' : Key, op.move p = some p' → (r'.Has p' ↔ r.Has p) := by
  unfold Op.classify at hc
  split at hc
  · cases hc
  · next hs =>
    simp only [ne_eq, Decidable.not_not] at hs
    unfold compactRegion at h
    rw [if_neg (by simp [hs])] at h
    have key : ∀ p p' : Key, op.move p = some p' → r.sheet = p.sheet → op.moveCoord (op.coord p) = some (op.coord p') ∧
        if op.rows then p'.col = p.col else p'.row = p.row := fun p p' hm he => move_coord (by rw [← he]; exact hs) hm
    split at h
    · next hrw =>
      simp only [Op.axis, hrw, if_true] at hc
      obtain ⟨a, ha, rfl⟩ := Option.map_eq_some_iff.1 h
      obtain ⟨h1, h2⟩ := compactRange_spec hop hd hr.1 hc ha
      refine ⟨hs, ⟨h1, hr.2⟩, rfl, fun p p' hm => ?_⟩
      have hsh := move_sheet hm
      simp only [Region.Has]
      by_cases he : p.sheet = r.sheet
      · obtain ⟨k1, k2⟩ := key p p' hm he.symm
        simp only [Op.coord, hrw, if_true] at k1 k2
        rw [hsh, k2, h2 _ _ k1]
      · rw [hsh]; simp [he]
    · next hrw =>
      simp only [Bool.not_eq_true] at hrw
      simp only [Op.axis, hrw, Bool.false_eq_true, if_false] at hc
      obtain ⟨a, ha, rfl⟩ := Option.map_eq_some_iff.1 h
      obtain ⟨h1, h2⟩ := compactRange_spec hop hd hr.2 hc ha
      refine ⟨hs, ⟨hr.1, h1⟩, rfl, fun p p' hm => ?_⟩
      have hsh := move_sheet hm
      simp only [Region.Has]
      by_cases he : p.sheet = r.sheet
      · obtain ⟨k1, k2⟩ := key p p' hm he.symm
        simp only [Op.coord, hrw, Bool.false_eq_true, if_false] at k1 k2
        rw [hsh, k2, h2 _ _ k1]
      · rw [hsh]; simp [he]

/-! ### The formulas that are left -/

/-- As `Frame.Tracks`, but a reference to whole columns may lose cells (they are deleted rows of the columns). -/
def Frame.Keeps (op : Op) (env env' : Env) (f f' : Frame) (p p' : Key) : Prop :=
  List.Forall₂ (fun r r' =>
    (∀ k k', op.move k = some k' → (r'.Denotes env' f'.origin p' k' ↔ r.Denotes env f.origin p k)) ∧
    (¬ r.WholeCols → ∀ k, r.Denotes env f.origin p k → ∃ k', op.move k = some k') ∧ (r'.WholeCols ↔ r.WholeCols))
    f.refs f'.refs

/-- What the code does not check: what is read from the sheet of the deletion is read in the same row (column, if columns
are deleted) or by absolute reference from before the deletion; what is read from other sheets, by absolute reference. -/
def CompactSafe (op : Op) (d : Dependency) : Prop :=
  if d.read.sheet = op.sheet then (∀ b ∈ op.bounds d.rule, b = .rel 0) ∨ ∀ b ∈ op.bounds d.rule, ∃ i, b = .abs i ∧ i < op.at_
  else ∀ b ∈ op.bounds d.rule, ∃ i, b = .abs i

section
variable {op : Op} {env env' : Env} {s s' : Span}

theorem rule_dep {result : Region} {xs : List (Nat × Rule)} {deps : List Dependency} (hres : result.Ok) (hxs : RulesOk xs)
    (hsum : Summary result xs deps) {x : Nat × Rule} (hx : x ∈ xs) : ∃ d ∈ deps, d.rule = x.2 ∧ d.read.sheet = x.1 := by
  obtain ⟨rs, h1, h2⟩ := hsum.covers x hx
  obtain ⟨g1, g2, -⟩ := bounds_in_regions (op := ⟨true, true, 0, 0, 0⟩) hres (hxs x hx).2 h1
  obtain ⟨g, hg⟩ := List.exists_mem_of_ne_nil _ g2
  exact ⟨_, h2 g hg, rfl, g1 g hg⟩

/-- **A span that is compacted.**  Its cells are those cells of the span that are left, where the deletion puts them; and
the formulas follow.  Partial: under conditions on the formula and its origin that the code does not check. -/
theorem compact_tracks_partial (hop : op.Fits) (henv : env.Ok) (he : EnvMoves op env env') (hg : Good env s)
    (hc : classifySpan op s.result s.deps = .compact) (ho : op.originCoord s.template < op.at_)
    (hsafe : ∀ d ∈ s.deps, CompactSafe op d) (h : apply env op s = .moved s') :
    (∀ p p' : Key, op.move p = some p' → (s'.result.Has p' ↔ s.result.Has p)) ∧
    (∀ p' : Key, s'.result.Has p' → ∃ p, s.result.Has p ∧ op.move p = some p') ∧
    ∀ p p' : Key, s.result.Has p → op.move p = some p' → s.template.Keeps op env env' s'.template p p' ∧
      s.shown.Keeps op env env' s'.shown p p' ∧ s.evaluated.Keeps op env env' s'.evaluated p p' := by
  obtain ⟨xs, hg⟩ := hg
  have hxs := rulesOk_of_frame henv hg.template
  have hcase : op.classify s.result = .straddles ∧ op.del = true := by
    unfold classifySpan at hc
    cases hcl : op.classify s.result with
    | straddles =>
      rw [hcl] at hc
      dsimp only at hc
      split at hc
      · next hd => exact ⟨rfl, hd⟩
      · cases hc
    | contained => rw [hcl] at hc; cases hc
    | above =>
      rw [hcl] at hc; dsimp only at hc; unfold classifyReads at hc
      split at hc
      · cases hc
      · dsimp only at hc
        split at hc
        · split at hc <;> cases hc
        · split at hc
          · cases hc
          · split at hc
            · cases hc
            · split at hc <;> cases hc
    | below =>
      rw [hcl] at hc; dsimp only at hc; unfold classifyReads at hc
      split at hc
      · cases hc
      · simp only [Bool.not_false, if_true] at hc
        split at hc <;> cases hc
    | otherSheet =>
      rw [hcl] at hc; dsimp only at hc; unfold classifyReads at hc
      split at hc
      · cases hc
      · simp only [Bool.not_false, if_true] at hc
        split at hc <;> cases hc
  obtain ⟨hstr, hdel⟩ := hcase
  unfold apply at h
  rw [hc] at h
  dsimp only at h
  unfold applyCompact at h
  split at h
  · cases h1 : compactRegion op s.result with
    | none => rw [h1] at h; cases h
    | some result =>
      cases h2 : s.deps.mapM (compactDep op) with
      | none => rw [h1, h2] at h; cases h
      | some deps =>
        have h3 : s.template.throughDelete op = some s.template := by
          unfold Frame.throughDelete originThroughDelete
          unfold Op.originCoord at ho
          split
          · next hr => rw [if_pos hr] at ho; rw [if_pos ho]; rfl
          · next hr => rw [if_neg hr] at ho; rw [if_pos ho]; rfl
        rw [h1, h2, h3] at h
        cases h
        obtain ⟨e1, e2, e3, e4⟩ := compactRegion_spec hop hdel hg.ok hstr h1
        refine ⟨e4, fun p' hp' => ?_, fun p p' hp hm => ?_⟩
        · obtain ⟨p, hm⟩ := move_onto hdel p'
          exact ⟨p, (e4 p p' hm).1 hp', hm⟩
        · dsimp only
          obtain ⟨m1, m2⟩ := move_coord (by rw [hp.1]; exact e1) hm
          have hcoord : op.Below (op.coord p) ∨ op.Above (op.coord p) := by
            rw [moveCoord_spec] at m1
            unfold Op.Below Op.Above
            rcases m1 with m1 | m1 | m1
            · exact Or.inl m1.1
            · exact Or.inr ⟨m1.1, fun _ => m1.2.2.1⟩
            · exact Or.inr ⟨m1.1, fun hd => by rw [m1.2.1] at hd; cases hd⟩
          have safe : ∀ x ∈ xs, if x.1 = op.sheet then (∀ b ∈ op.bounds x.2, b = .rel 0) ∨
              ∀ b ∈ op.bounds x.2, ∃ i, b = .abs i ∧ i < op.at_ else ∀ b ∈ op.bounds x.2, ∃ i, b = .abs i := by
            intro x hx
            obtain ⟨d, hd, d1, d2⟩ := rule_dep hg.ok hxs hg.summary hx
            have := hsafe d hd
            unfold CompactSafe at this
            rw [d1, d2] at this
            exact this
          have hstay : ∀ x ∈ xs, AbsStay op x := by
            intro x hx i hi
            have := safe x hx
            by_cases hs : x.1 = op.sheet
            · rw [if_pos hs] at this
              rcases this with h | h
              · have := h _ hi; cases this
              · obtain ⟨j, hj, hlt⟩ := h _ hi
                cases hj
                exact Or.inr hlt
            · exact Or.inl hs
          have hf' := frame_env he hg.template hstay
          have follow : ∀ x ∈ xs, Follows op x.1 p p' x.2 x.2 := by
            intro x hx
            have := follows_add (op := op) (sheet := x.1) (p := p) (p' := p') (d := 0) (hxs x hx).1 m2 (fun b hb => by
              rw [addProj_zero]
              have hsf := safe x hx
              by_cases hs : x.1 = op.sheet
              · rw [if_pos hs] at hsf ⊢
                rcases hsf with h | h
                · rw [h b hb]
                  exact ⟨_, _, by simp [AxisProj.at_], by simp [AxisProj.at_], m1⟩
                · obtain ⟨i, rfl, hlt⟩ := h b hb
                  exact ⟨i, i, rfl, rfl, moveCoord_below hlt⟩
              · rw [if_neg hs] at hsf ⊢
                obtain ⟨i, rfl⟩ := hsf b hb
                rfl)
            simpa [addRule_zero] using this
          have kept : ∀ x ∈ xs, (∀ a b, x.2 ≠ .wholeCols a b) → ∀ k, x.2.Reads x.1 p k → ∃ k', op.move k = some k' := by
            intro x hx hw k hk
            have hks : k.sheet = x.1 := by
              obtain ⟨s0, rule⟩ := x
              cases rule with
              | wholeResult => exact absurd rfl (hxs _ hx).1
              | _ => exact hk.1
            refine move_some ?_
            by_cases hs : x.1 = op.sheet
            · right
              have hsf := safe x hx
              rw [if_pos hs] at hsf
              have bd : ∃ a ∈ op.bounds x.2, ∃ b ∈ op.bounds x.2, Between (a.at_ (op.coord p)) (b.at_ (op.coord p)) (op.coord k) := by
                obtain ⟨s0, rule⟩ := x
                unfold Op.coord Op.bounds
                dsimp only at hk ⊢
                cases rule with
                | wholeResult => exact absurd rfl (hxs _ hx).1
                | wholeCols c d => exact absurd rfl (hw c d)
                | cell r c =>
                  obtain ⟨-, k1, k2⟩ := hk
                  cases hr : op.rows
                  · exact ⟨c, by simp, c, by simp, by unfold Between; simp only [Bool.false_eq_true, if_false]; omega⟩
                  · exact ⟨r, by simp, r, by simp, by unfold Between; simp only [if_true]; omega⟩
                | range a b c d =>
                  obtain ⟨-, k1, k2⟩ := hk
                  cases hr : op.rows
                  · exact ⟨c, by simp, d, by simp, by simpa using k2⟩
                  · exact ⟨a, by simp, b, by simp, by simpa using k1⟩
              obtain ⟨a, ha, b, hb, hbt⟩ := bd
              unfold Between at hbt
              rcases hsf with h | h
              · rw [h a ha, h b hb] at hbt
                simp only [AxisProj.at_] at hbt
                have : op.coord k = op.coord p := by omega
                rw [this]
                exact hcoord
              · obtain ⟨i, rfl, hi⟩ := h a ha
                obtain ⟨j, rfl, hj⟩ := h b hb
                simp only [AxisProj.at_] at hbt
                left
                unfold Op.Below
                omega
            · left; rw [hks]; exact hs
          have keeps : ∀ f, FrameOk env s.result.sheet f xs → f.Keeps op env env' s.template p p' := by
            intro f hf
            refine forall₂_chain hf.rules (List.forall₂_same.2 fun x _ => (rfl : x = x)) hf'.rules
              fun r hr x hx x' _ r' hr' q1 q2 q3 => ?_
            subst q2
            obtain ⟨⟨-, -, hwc, hd⟩, hcw⟩ := ruleOf_spec henv (hf.written r hr) q1
            obtain ⟨⟨-, -, hwc', hd'⟩, hcw'⟩ := ruleOf_spec he.ok (hf'.written r' hr') q3
            refine ⟨fun k k' hk => ?_, fun hno k hk => ?_, fun hw => ?_, fun hw => ?_⟩
            · rw [hd' p' k', hd p k]; exact follows_same (follow x hx) hk
            · exact kept x hx (fun a b e => hno (hwc a b e)) k ((hd p k).1 hk)
            · obtain ⟨a, b, e⟩ := hcw' hw; exact hwc a b e
            · obtain ⟨a, b, e⟩ := hcw hw; exact hwc' a b e
          exact ⟨keeps _ hg.template, keeps _ hg.shown, keeps _ hg.evaluated⟩
  · cases h

/-! ### What is recorded about the reads of a compacted span -/

theorem key_ext {k k' : Key} (h1 : k.sheet = k'.sheet) (h2 : k.row = k'.row) (h3 : k.col = k'.col) : k = k' := by
  cases k; cases k'; cases h1; cases h2; cases h3; rfl

theorem above_offset {op : Op} (hop : op.Fits) (hd : op.del = true) {a a' : AxisRange} (ha : a.Ok)
    (hc : op.classifyAxis a = .above) (h : a.projectThroughOffset op.delta = some a') (x x' : Nat)
    (hx : op.moveCoord x = some x') : a'.Has x' ↔ a.Has x := by
  have hl := last_eq hop
  have hrm := hop.room
  unfold Op.classifyAxis at hc
  rw [if_pos hd] at hc
  split at hc
  · cases hc
  · next h1 =>
    split at hc
    · next h2 =>
      clear hc
      rw [hl] at h2
      rw [moveCoord_spec] at hx
      simp only [hd, Bool.true_eq_false, false_and, and_false, or_false, true_and] at hx
      have hdl : op.delta = -(op.count : Int) := by unfold Op.delta; rw [if_pos hd]
      rw [hdl] at h
      have hsf : ∀ v : Nat, v ≤ u32Max → AxisRange.shifted v (-(op.count : Int)) = v - op.count := by
        intro v hv
        unfold u32Max at hrm hv
        unfold AxisRange.shifted i64Min i64Max
        omega
      have hcl : ∀ v : Nat, v ≤ u32Max → AxisRange.clampU32 ((v : Int) - op.count) = v - op.count := by
        intro v hv
        unfold AxisRange.clampU32
        split
        · omega
        · split <;> omega
      cases a with
      | point q =>
        simp only [AxisRange.bounds] at h1 h2
        simp only [AxisRange.projectThroughOffset, hsf q ha] at h
        split at h
        · obtain rfl := Option.some.inj h
          rw [has_point, has_point]
          omega
        · cases h
      | span s e =>
        simp only [AxisRange.bounds] at h1 h2
        have := ha.1
        have h2' := ha.2
        simp only [AxisRange.projectThroughOffset, hsf e h2', hsf s (by omega)] at h
        split at h
        · cases h
        · obtain rfl := Option.some.inj h
          rw [has_span, has_span]
          rw [hcl e h2', hcl s (by omega)]
          omega
      | from_ s =>
        simp only [AxisRange.bounds] at h1 h2
        simp only [AxisRange.projectThroughOffset, hsf s ha] at h
        rw [if_neg (by omega)] at h
        obtain rfl := Option.some.inj h
        rw [has_from, has_from]
        rw [hcl s ha]
        omega
      | «to» e =>
        simp only [AxisRange.bounds] at h1 h2
        have : op.count = 0 := by omega
        simp only [AxisRange.projectThroughOffset, hsf e ha] at h
        rw [if_neg (by omega)] at h
        obtain rfl := Option.some.inj h
        rw [has_to, has_to]
        rw [hcl e ha]
        omega
      | all =>
        obtain rfl := Option.some.inj h
        rw [has_all, has_all]
        omega
    · split at hc <;> cases hc

/-- **The reads that are recorded for a compacted span**: the rule is kept, and the region is what the deletion leaves of the
region, where it puts it. -/
theorem compact_reads {op : Op} (hop : op.Fits) (hd : op.del = true) {d d' : Dependency} (hr : d.read.Ok)
    (h : compactDep op d = some d') :
    d'.rule = d.rule ∧ ∀ k k' : Key, op.move k = some k' → (d'.read.Has k' ↔ d.read.Has k) := by
  obtain ⟨k0, hk0⟩ := region_nonempty hr
  obtain ⟨c1, c2, c3⟩ := classify_sheet hop (has_axis (op := op) hk0)
  have keep : ∀ k k' : Key, (op.classify d.read = .otherSheet ∨ op.classify d.read = .below) → op.move k = some k' →
      (d.read.Has k' ↔ d.read.Has k) := by
    intro k k' hc hm
    by_cases hs : k.sheet = op.sheet
    · rcases hc with hc | hc
      · have := c1.1 hc
        have := move_sheet hm
        constructor
        · intro hh; exact absurd (hh.1.symm.trans (by rw [this, hs])) (c1.1 hc)
        · intro hh; exact absurd (hh.1.symm.trans hs) (c1.1 hc)
      · obtain ⟨m1, m2⟩ := move_coord hs hm
        have hsh := move_sheet hm
        constructor
        · intro hh
          have hb := (classify_sheet hop (has_axis (op := op) hh)).2.1 hc
          have : op.coord k = op.coord k' := by
            have hb := hb.2
            unfold Op.Below at hb
            rw [moveCoord_spec, hd] at m1
            omega
          have he : k = k' := by
            unfold Op.coord at this
            cases hrw : op.rows <;> simp only [hrw, if_true, Bool.false_eq_true, if_false] at this m2
            · exact key_ext hsh.symm m2.symm this
            · exact key_ext hsh.symm this m2.symm
          rw [he]; exact hh
        · intro hh
          have hb := (classify_sheet hop (has_axis (op := op) hh)).2.1 hc
          have : op.coord k = op.coord k' := by
            have hb := hb.2
            unfold Op.Below at hb
            rw [moveCoord_spec, hd] at m1
            omega
          have he : k = k' := by
            unfold Op.coord at this
            cases hrw : op.rows <;> simp only [hrw, if_true, Bool.false_eq_true, if_false] at this m2
            · exact key_ext hsh.symm m2.symm this
            · exact key_ext hsh.symm this m2.symm
          rw [← he]; exact hh
    · rw [move_other hs] at hm
      obtain rfl := Option.some.inj hm
      exact Iff.rfl
  unfold compactDep at h
  cases hcl : op.classify d.read with
  | otherSheet => rw [hcl] at h; cases h; exact ⟨rfl, fun k k' hm => keep k k' (Or.inl hcl) hm⟩
  | below => rw [hcl] at h; cases h; exact ⟨rfl, fun k k' hm => keep k k' (Or.inr hcl) hm⟩
  | contained => rw [hcl] at h; cases h
  | straddles =>
    rw [hcl] at h
    obtain ⟨r, hr', rfl⟩ := Option.map_eq_some_iff.1 h
    exact ⟨rfl, (compactRegion_spec hop hd hr hcl hr').2.2.2⟩
  | above =>
    rw [hcl] at h
    obtain ⟨r, hr', rfl⟩ := Option.map_eq_some_iff.1 h
    refine ⟨rfl, fun k k' hm => ?_⟩
    dsimp only
    obtain ⟨hs, -⟩ := c3 hcl
    have hsh := move_sheet hm
    unfold Op.classify at hcl
    rw [if_neg (by simp [hs])] at hcl
    unfold Region.projectThroughAxisShift at hr'
    by_cases hks : k.sheet = op.sheet
    · obtain ⟨m1, m2⟩ := move_coord hks hm
      unfold Op.coord at m1
      cases hrw : op.rows
      · simp only [hrw, Bool.false_eq_true, if_false, Op.rowDelta, Op.colDelta] at hr' m1 m2
        simp only [Op.axis, hrw, Bool.false_eq_true, if_false] at hcl
        rw [project_same hr.1] at hr'
        dsimp only at hr'
        split at hr'
        · cases hr'
        · next c hc =>
          obtain rfl := Option.some.inj hr'
          simp only [Region.Has]
          rw [hsh, m2, above_offset hop hd hr.2 hcl hc _ _ m1]
      · simp only [hrw, if_true, Op.rowDelta, Op.colDelta] at hr' m1 m2
        simp only [Op.axis, hrw, if_true] at hcl
        rw [project_same hr.2] at hr'
        split at hr'
        · cases hr'
        · next c hc =>
          dsimp only at hr'
          obtain rfl := Option.some.inj hr'
          simp only [Region.Has]
          rw [hsh, m2, above_offset hop hd hr.1 hcl hc _ _ m1]
    · have e : r.sheet = d.read.sheet := by
        split at hr'
        · cases hr'
        · split at hr'
          · cases hr'
          · cases hr'; rfl
      constructor
      · intro hh; exact absurd (by rw [← hsh, hh.1, e, hs]) hks
      · intro hh; exact absurd (by rw [hh.1, hs]) hks

/-- **A span is not compacted, but given up, if it reads by absolute reference something that the deletion moves.** -/
theorem compact_gives_up {op : Op} {env : Env} {s : Span} (hop : op.Fits) (hdeps : ∀ d ∈ s.deps, d.read.Ok)
    (hc : classifySpan op s.result s.deps = .compact) {d : Dependency} (hd : d ∈ s.deps) (hdel : op.del = true)
    (hs : d.read.sheet = op.sheet) (ha : ∀ k : Key, d.read.Has k → op.at_ + op.count ≤ op.coord k)
    (habs : ∃ b ∈ op.bounds d.rule, ∃ i, b = .abs i) : apply env op s = .demoted := by
  have hcl : op.classify d.read = .above := by
    obtain ⟨k0, hk0⟩ := region_nonempty (hdeps d hd)
    have hmin : ∃ k : Key, d.read.Has k ∧ op.coord k = (op.axis d.read).bounds.1 := by
      obtain ⟨-, k1, k2⟩ := hk0
      have low : ∀ a : AxisRange, a.Ok → a.Has a.bounds.1 := by
        intro a hok
        cases a with
        | point p => rfl
        | span s e => exact ⟨Nat.le_refl _, hok.1⟩
        | from_ s => rw [has_from]; simp [AxisRange.bounds]
        | «to» e => rw [has_to]; simp [AxisRange.bounds]
        | all => rw [has_all]; trivial
      unfold Op.coord Op.axis
      cases op.rows
      · exact ⟨⟨d.read.sheet, k0.row, d.read.cols.bounds.1⟩, ⟨rfl, k1, low _ (hdeps d hd).2⟩, rfl⟩
      · exact ⟨⟨d.read.sheet, d.read.rows.bounds.1, k0.col⟩, ⟨rfl, low _ (hdeps d hd).1, k2⟩, rfl⟩
    obtain ⟨k, hk, e⟩ := hmin
    have h1 := ha k hk
    have h2 := has_bounds (has_axis (op := op) hk)
    have hl := last_eq hop
    have hcount := hop.pos
    have hroom := hop.room
    unfold Op.classify Op.classifyAxis
    rw [if_neg (by simp [hs]), if_pos hdel, if_neg (by omega), if_pos (by omega)]
  have : op.displacedAbsolute s.deps = true := by
    unfold Op.displacedAbsolute Op.hasAbsolute
    rw [List.any_eq_true]
    obtain ⟨b, hb, i, rfl⟩ := habs
    refine ⟨d, hd, ?_⟩
    simp only [hcl, decide_true, Bool.true_and]
    rw [List.any_eq_true]
    exact ⟨_, hb, rfl⟩
  unfold apply
  rw [hc]
  unfold applyCompact
  rw [this]
  simp

/-! ### Spans that are not looked at -/

theorem axis_below {a : AxisRange} {n : Nat} (h : ∀ x, a.Has x → x < n) (hok : a.Ok) : a.bounds.2 < n := by
  cases a with
  | point p => exact h p rfl
  | span s e => exact h e ⟨hok.1, Nat.le_refl _⟩
  | from_ s => have := h (max s n) (by rw [has_from]; omega); omega
  | «to» e => exact h e (by rw [has_to]; omega)
  | all => have := h n (by rw [has_all]; omega); omega

/-- **Spans that are not looked at.**  The code looks only at spans of which the result or a region that is read meets the
rows (or columns) from the operation on (eval.rs 12743-12825); for all others it would have found nothing to do. -/
theorem skipped_noOp {result : Region} {deps : List Dependency} (hres : result.Ok) (hdeps : ∀ d ∈ deps, d.read.Ok)
    (h1 : ∀ k : Key, result.Has k → k.sheet = op.sheet → op.coord k < op.at_)
    (h2 : ∀ d ∈ deps, ∀ k : Key, d.read.Has k → k.sheet = op.sheet → op.coord k < op.at_) :
    classifySpan op result deps = .noOp := by
  have cls : ∀ r : Region, r.Ok → (∀ k : Key, r.Has k → k.sheet = op.sheet → op.coord k < op.at_) →
      op.classify r = .otherSheet ∨ op.classify r = .below := by
    intro r hr h
    unfold Op.classify
    split
    · exact Or.inl rfl
    · next hs =>
      simp only [ne_eq, Decidable.not_not] at hs
      right
      obtain ⟨k0, hk0⟩ := region_nonempty hr
      have hb : (op.axis r).bounds.2 < op.at_ := by
        unfold Op.axis
        cases hrw : op.rows with
        | true =>
          refine axis_below (fun x hx => ?_) hr.1
          have := h ⟨r.sheet, x, k0.col⟩ ⟨rfl, hx, hk0.2.2⟩ hs
          simpa [Op.coord, hrw] using this
        | false =>
          refine axis_below (fun x hx => ?_) hr.2
          have := h ⟨r.sheet, k0.row, x⟩ ⟨rfl, hk0.2.1, hx⟩ hs
          simpa [Op.coord, hrw] using this
      unfold Op.classifyAxis
      simp only [hb, if_true]
      split <;> rfl
  have hd : ∀ d ∈ deps, op.classify d.read = .otherSheet ∨ op.classify d.read = .below := fun d hd => cls _ (hdeps d hd) (h2 d hd)
  have hr : classifyReads op false deps = .noOp := by
    unfold classifyReads
    rw [if_neg]
    · have e1 : (deps.any fun d => decide (op.classify d.read = .above) && op.hasRelative d.rule) = false := by
        rw [List.any_eq_false]
        intro d hd'
        rcases hd d hd' with e | e <;> simp [e]
      have e2 : op.displacedAbsolute deps = false := by
        unfold Op.displacedAbsolute
        rw [List.any_eq_false]
        intro d hd'
        rcases hd d hd' with e | e <;> simp [e]
      simp only [e1, e2, Bool.not_false, if_true, Bool.or_false, Bool.false_eq_true, if_false]
    · rw [List.any_eq_true]
      rintro ⟨d, hd', hx⟩
      rcases hd d hd' with e | e <;> simp [e] at hx
  unfold classifySpan
  rcases cls result hres h1 with e | e
  · rw [e]; exact hr
  · rw [e]; exact hr

end

end Verif.Plane.Edit

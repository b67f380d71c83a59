/-
Spans that an insertion cuts in two (property C61).
-/
import Verif.Plane.ShiftProps
import Mathlib.Tactic.Tauto

namespace Verif.Plane.Edit

open Verif.Plane

/-! ### The two halves -/

theorem splitAxis_spec {a u l : AxisRange} {n : Nat} (h : splitAxis a n = some (u, l)) (ha : a.Ok) :
    u.Ok ∧ l.Ok ∧ ∀ x, a.Has x ↔ u.Has x ∨ l.Has x := by
  unfold splitAxis at h
  cases a with
  | span s e =>
    dsimp only at h
    split at h
    · next hc =>
      obtain ⟨rfl, rfl⟩ : _ ∧ _ := by simpa [eq_comm] using h
      simp only [AxisRange.Ok] at ha ⊢
      refine ⟨by omega, by omega, fun x => ?_⟩
      rw [has_span, has_span, has_span]
      omega
    · cases h
  | _ => cases h

theorem splitDomain_spec {r u l : Region} {op : Op} (h : splitDomain r op = some (u, l)) (hr : r.Ok) :
    u.Ok ∧ l.Ok ∧ u.sheet = r.sheet ∧ l.sheet = r.sheet ∧ ∀ p : Key, r.Has p ↔ u.Has p ∨ l.Has p := by
  unfold splitDomain at h
  split at h
  · cases h
  · split at h
    · cases hs : splitAxis r.rows op.at_ with
      | none => rw [hs] at h; cases h
      | some x =>
        rw [hs] at h
        obtain ⟨rfl, rfl⟩ : _ ∧ _ := by simpa [eq_comm] using h
        obtain ⟨h1, h2, h3⟩ := splitAxis_spec hs hr.1
        refine ⟨⟨h1, hr.2⟩, ⟨h2, hr.2⟩, rfl, rfl, fun p => ?_⟩
        simp only [Region.Has, h3]
        tauto
    · cases hs : splitAxis r.cols op.at_ with
      | none => rw [hs] at h; cases h
      | some x =>
        rw [hs] at h
        obtain ⟨rfl, rfl⟩ : _ ∧ _ := by simpa [eq_comm] using h
        obtain ⟨h1, h2, h3⟩ := splitAxis_spec hs hr.2
        refine ⟨⟨hr.1, h1⟩, ⟨hr.1, h2⟩, rfl, rfl, fun p => ?_⟩
        simp only [Region.Has, h3]
        tauto

/-! ### Their read summaries -/

theorem rederive_eq (result : Region) : ∀ (deps out : List Dependency),
    rederive result out deps = readSummary result out (deps.map fun d => (d.read.sheet, d.rule))
  | [], _ => rfl
  | d :: ds, out => by
    simp only [rederive, List.map_cons, readSummary]
    cases d.rule.readRegions d.read.sheet result with
    | none => rfl
    | some rs => exact rederive_eq result ds _

theorem Summary.congr {result : Region} {xs ys : List (Nat × Rule)} {deps : List Dependency} (h : Summary result xs deps)
    (hm : ∀ x, x ∈ ys ↔ x ∈ xs) : Summary result ys deps := by
  refine ⟨fun x hx => h.covers x ((hm x).1 hx), fun d hd => ?_⟩
  obtain ⟨x, hx, hr⟩ := h.only d hd
  exact ⟨x, (hm x).2 hx, hr⟩

theorem rederive_summary {result part : Region} {xs : List (Nat × Rule)} {deps out : List Dependency} (hres : result.Ok)
    (hxs : RulesOk xs) (hsum : Summary result xs deps) (h : rederive part [] deps = some out) : Summary part xs out := by
  rw [rederive_eq] at h
  refine (summary_of_readSummary h).congr fun x => ⟨fun hx => ?_, fun hx => ?_⟩
  · obtain ⟨rs, h1, h2⟩ := hsum.covers x hx
    obtain ⟨g1, g2, -⟩ := bounds_in_regions (op := ⟨true, true, 0, 0, 0⟩) hres (hxs x hx).2 h1
    obtain ⟨g, hg⟩ := List.exists_mem_of_ne_nil _ g2
    refine List.mem_map.2 ⟨_, h2 g hg, ?_⟩
    rw [g1 g hg]
  · obtain ⟨d, hd, rfl⟩ := List.mem_map.1 hx
    obtain ⟨x, hx, e1, rs, h1, h2⟩ := hsum.only d hd
    obtain ⟨g1, -⟩ := bounds_in_regions (op := ⟨true, true, 0, 0, 0⟩) hres (hxs x hx).2 h1
    rw [e1, g1 _ h2]
    exact hx

/-- The end of an extent is where one of the bounds points at the end of the result. -/
theorem extent_top {a b : AxisProj} {lo hi : Nat} {e : Nat × Nat} (h : rangeSourceExtent a b lo hi = some e)
    (ha : ∀ i, a = .abs i → i ≤ u32Max) (hb : ∀ i, b = .abs i → i ≤ u32Max) (hle : lo ≤ hi) :
    (e.2 : Int) = a.at_ hi ∨ (e.2 : Int) = b.at_ hi := by
  have one : ∀ (c : AxisProj) (x : Nat × Nat), c.sourceExtent lo hi = some x → (x.2 : Int) = c.at_ hi := by
    intro c x hx
    cases c with
    | abs i => simp only [AxisProj.sourceExtent, Option.some.injEq] at hx; subst hx; rfl
    | rel o =>
      simp only [AxisProj.sourceExtent] at hx
      have add : ∀ (v w : Nat), addOffset v o = some w → (w : Int) = v + o := by
        intro v w hv
        unfold addOffset at hv
        split at hv
        · cases hv
        · split at hv
          · cases hv; omega
          · cases hv
      cases h1 : addOffset lo o with
      | none => rw [h1] at hx; cases hx
      | some l =>
        rw [h1] at hx
        cases h2 : addOffset hi o with
        | none => rw [h2] at hx; cases hx
        | some u =>
          rw [h2] at hx
          obtain rfl := Option.some.inj hx
          exact add _ _ h2
  unfold rangeSourceExtent at h
  cases h1 : a.sourceExtent lo hi with
  | none => rw [h1] at h; cases h
  | some x =>
    rw [h1] at h
    cases h2 : b.sourceExtent lo hi with
    | none => rw [h2] at h; cases h
    | some y =>
      rw [h2] at h
      obtain rfl := Option.some.inj h
      have := one _ _ h1
      have := one _ _ h2
      dsimp only
      omega

theorem region_top {op : Op} {rule : Rule} {sheet : Nat} {result : Region} {rs : List Region} (hres : result.Ok)
    (hf : rule.Fits) (h : rule.readRegions sheet result = some rs) {g : Region} (hg : g ∈ rs) : op.axis g = .all ∨
    ∃ b ∈ op.bounds rule, ∃ p : Key, result.Has p ∧ ((op.axis g).bounds.2 : Int) ≤ b.at_ (op.coord p) := by
  obtain ⟨rr, rc, c, d, sc, h1, h2, h3, h4, h5⟩ := readRegions_shape h
  obtain ⟨q1, q2, q3, q4, q5⟩ := boundedOf_spec h1 hres.1
  obtain ⟨w1, w2, w3, w4, w5⟩ := boundedOf_spec h2 hres.2
  have fc := colEnds_fits h3 hf
  have hp : result.Has ⟨result.sheet, rr.2, rc.2⟩ := ⟨rfl, q4, w4⟩
  have tc := extent_top h4 fc.1 fc.2 w1
  rcases h5 with ⟨a, b, sr, h5, h6, rfl⟩ | ⟨rfl, h5, h6, rfl⟩
  · have fr := rowEnds_fits h5 hf
    have tr := extent_top h6 fr.1 fr.2 q1
    obtain rfl := List.mem_singleton.1 hg
    right
    rw [regionOfExtents_eq]
    cases hr : op.rows with
    | true =>
      have hb : ∀ x, x = a ∨ x = b → x ∈ op.bounds rule := by
        intro x hx
        cases rule <;> cases h5 <;> simp only [Op.bounds, hr, if_true, List.mem_cons, List.not_mem_nil, or_false] <;> tauto
      simp only [Op.axis, Op.coord, hr, if_true, ext_bounds]
      rcases tr with e | e
      · exact ⟨a, hb a (Or.inl rfl), _, hp, Int.le_of_eq e⟩
      · exact ⟨b, hb b (Or.inr rfl), _, hp, Int.le_of_eq e⟩
    | false =>
      have hb : ∀ x, x = c ∨ x = d → x ∈ op.bounds rule := by
        intro x hx
        cases rule <;> cases h3 <;>
          simp only [Op.bounds, hr, Bool.false_eq_true, if_false, List.mem_cons, List.not_mem_nil, or_false] <;> tauto
      simp only [Op.axis, Op.coord, hr, Bool.false_eq_true, if_false, ext_bounds]
      rcases tc with e | e
      · exact ⟨c, hb c (Or.inl rfl), _, hp, Int.le_of_eq e⟩
      · exact ⟨d, hb d (Or.inr rfl), _, hp, Int.le_of_eq e⟩
  · obtain ⟨i, hi, rfl⟩ := List.mem_map.1 hg
    have hi := List.mem_range.1 hi
    cases hr : op.rows with
    | true => left; simp only [Op.axis, hr, if_true, Region.wholeCol]
    | false =>
      right
      simp only [Op.axis, Op.coord, hr, Bool.false_eq_true, if_false, Region.wholeCol, Op.bounds, AxisRange.bounds]
      rcases tc with e | e
      · exact ⟨c, by simp, _, hp, by dsimp only; omega⟩
      · exact ⟨d, by simp, _, hp, by dsimp only; omega⟩

/-- What is read from part of the result has no less room. -/
theorem room_part {op : Op} {result part : Region} {xs : List (Nat × Rule)} {deps out : List Dependency} (hres : result.Ok)
    (hpart : part.Ok) (hsub : ∀ p : Key, part.Has p → result.Has p) (hxs : RulesOk xs) (hsum : Summary result xs deps)
    (hsum' : Summary part xs out) (hop : op.Fits) (hroom : Room op deps) : Room op out := by
  intro d hd
  obtain ⟨x, hx, e1, rs', h1, h2⟩ := hsum'.only d hd
  obtain ⟨rs, h3, h4⟩ := hsum.covers x hx
  rcases region_top (op := op) hpart (hxs x hx).2 h1 h2 with h | ⟨b, hb, p, hp, hv⟩
  · exact Or.inl h
  · right
    obtain ⟨-, -, g3, -⟩ := bounds_in_regions (op := op) hres (hxs x hx).2 h3
    obtain ⟨g, hg, v, v1, v2⟩ := g3 p (hsub p hp) b hb
    rcases hroom _ (h4 g hg) with e | e
    · dsimp only at e
      obtain ⟨rr, rc, c, d', sc, k1, k2, k3, k4, k5⟩ := readRegions_shape h3
      exfalso
      rcases k5 with ⟨a, b', sr, k5, k6, rfl⟩ | ⟨k0, k5, k6, rfl⟩
      · obtain rfl := List.mem_singleton.1 hg
        rw [regionOfExtents_eq] at e
        unfold Op.axis at e
        split at e
        · exact ext_ne_all _ e
        · exact ext_ne_all _ e
      · obtain ⟨i, -, rfl⟩ := List.mem_map.1 hg
        unfold Op.axis at e
        split at e
        · next hr => rw [k0] at hb; simp [Op.bounds, hr] at hb
        · simp [Region.wholeCol] at e
    · dsimp only at e
      have := (has_bounds v2).2 (by have := hop.pos; omega)
      omega

/-! ### The formulas -/

/-- No two cells go to the same place. -/
theorem move_inj {op : Op} {p q k : Key} (h1 : op.move p = some k) (h2 : op.move q = some k) : p = q := by
  have hs : p.sheet = q.sheet := (move_sheet h1).symm.trans (move_sheet h2)
  have inj : ∀ {x y z : Nat}, op.moveCoord x = some z → op.moveCoord y = some z → x = y := by
    intro x y z hx hy
    unfold Op.moveCoord at hx hy
    split at hx <;> split at hy <;> (try split at hx) <;> (try split at hy) <;> (try split at hx) <;> (try split at hy) <;>
      simp only [Option.some.injEq, reduceCtorEq] at hx hy <;> first | omega | contradiction
  unfold Op.move at h1 h2
  rw [hs] at h1
  split at h1
  · next h => rw [if_pos h] at h2; cases h1; cases h2; rfl
  · next h =>
    rw [if_neg h] at h2
    obtain ⟨ps, pr, pc⟩ := p
    obtain ⟨qs, qr, qc⟩ := q
    split at h1
    · next hr =>
      rw [if_pos hr] at h2
      obtain ⟨r, e1, rfl⟩ := Option.map_eq_some_iff.1 h1
      obtain ⟨r', e2, e3⟩ := Option.map_eq_some_iff.1 h2
      simp only [Key.mk.injEq] at e3
      obtain ⟨a1, rfl, a3⟩ := e3
      dsimp only at *
      rw [inj e1 e2, hs, a3]
    · next hr =>
      rw [if_neg hr] at h2
      obtain ⟨r, e1, rfl⟩ := Option.map_eq_some_iff.1 h1
      obtain ⟨r', e2, e3⟩ := Option.map_eq_some_iff.1 h2
      simp only [Key.mk.injEq] at e3
      obtain ⟨a1, a2, rfl⟩ := e3
      dsimp only at *
      rw [inj e1 e2, hs, a2]

/-- The template of the span is its own: it was made for this span and not for another one with the same formula. -/
def Span.Own (s : Span) : Prop := s.template.origin = s.shown.origin

section
variable {op : Op} {env env' : Env} {s u l : Span}

theorem halves_plan (h : apply env op s = .halves u l) : ∃ upper lower du dl om f result deps,
    splitDomain s.result op = some (upper, lower) ∧ rederive upper [] s.deps = some du ∧ rederive lower [] s.deps = some dl ∧
    classifySpan op upper du = .noOp ∧ classifySpan op lower dl = .shift om false ∧
    s.shown.move (if om then op.rowDelta else 0) (if om then op.colDelta else 0) = some f ∧
    shiftDomain lower op.rowDelta op.colDelta = some result ∧
    shiftDeps op (if om then op.rowDelta else 0) (if om then op.colDelta else 0) dl = some deps ∧
    u = ⟨upper, s.template, s.shown, s.evaluated, du, s.single⟩ ∧
    l = ⟨result, ⟨f.origin, s.template.refs⟩, f, ⟨f.origin, s.template.refs⟩, deps, s.single⟩ := by
  have h : applySplit op s = .halves u l := by
    unfold apply at h
    cases hc : classifySpan op s.result s.deps with
    | noOp => rw [hc] at h; cases h
    | shift a b =>
      rw [hc] at h
      dsimp only at h
      rcases applyShift_out env op s a b with e | e | ⟨s', e⟩ <;> rw [e] at h <;> cases h
    | split => rw [hc] at h; exact h
    | compact =>
      rw [hc] at h
      dsimp only at h
      rcases applyCompact_out op s with e | ⟨s', e⟩ <;> rw [e] at h <;> cases h
    | demote => rw [hc] at h; cases h
    | remove => rw [hc] at h; cases h
  unfold applySplit at h
  split at h
  · cases h
  · split at h
    · cases h
    · next upper lower h1 =>
      split at h
      · next du dl h2 h3 =>
        split at h
        · cases h
        · next h4 =>
          split at h
          · next om h5 =>
            unfold lowerHalf at h
            dsimp only at h
            cases h6 : s.shown.move (if om then op.rowDelta else 0) (if om then op.colDelta else 0) with
            | none => simp only [h6] at h; cases h
            | some f =>
              cases h7 : shiftDomain lower op.rowDelta op.colDelta with
              | none => simp only [h6, h7] at h; cases h
              | some result =>
                cases h8 : shiftDeps op (if om then op.rowDelta else 0) (if om then op.colDelta else 0) dl with
                | none => simp only [h6, h7, h8] at h; cases h
                | some deps =>
                  simp only [h6, h7, h8] at h
                  cases h
                  exact ⟨upper, lower, du, dl, om, f, result, deps, h1, h2, h3, by simpa using h4, h5, h6, h7, h8, rfl, rfl⟩
          · cases h
      · cases h

/-- What a split does to one frame of the span: the upper half has it still, the lower half has it moved. -/
theorem halves_core (hop : op.Fits) (henv : env.Ok) (he : EnvMoves op env env') {xs : List (Nat × Rule)}
    (hg : GoodWith env s xs) (hgrid : Grid op s) (h : apply env op s = .halves u l) :
    ∃ (om : Bool) (xs' : List (Nat × Rule)), Summary u.result xs u.deps ∧ Summary l.result xs' l.deps ∧ u.result.Ok ∧ l.result.Ok ∧
      u.result.sheet = s.result.sheet ∧ l.result.sheet = s.result.sheet ∧
      s.shown.move (if om then op.rowDelta else 0) (if om then op.colDelta else 0) = some l.shown ∧
      (∀ p : Key, u.result.Has p → op.move p = some p) ∧
      (∀ p' : Key, l.result.Has p' → ∃ p, s.result.Has p ∧ op.move p = some p' ∧ ∀ f f', FrameOk env s.result.sheet f xs →
        f.move (if om then op.rowDelta else 0) (if om then op.colDelta else 0) = some f' → f.Tracks op env env' f' p p') ∧
      (∀ p : Key, s.result.Has p → u.result.Has p ∨ ∃ p', op.move p = some p' ∧ l.result.Has p') ∧
      (∀ p : Key, u.result.Has p → s.result.Has p) ∧
      ∀ f, FrameOk env s.result.sheet f xs → (FrameOk env' s.result.sheet f xs ∧
        ∀ p : Key, u.result.Has p → f.Tracks op env env' f p p) ∧
        ∀ f', f.move (if om then op.rowDelta else 0) (if om then op.colDelta else 0) = some f' →
          FrameOk env' s.result.sheet f' xs' := by
  obtain ⟨upper, lower, du, dl, om, f, result, deps, h1, h2, h3, h4, h5, h6, h7, h8, rfl, rfl⟩ := halves_plan h
  have hxs := rulesOk_of_frame henv hg.template
  obtain ⟨o1, o2, o3, o4, o5⟩ := splitDomain_spec h1 hg.ok
  have su := rederive_summary hg.ok hxs hg.summary h2
  have sl := rederive_summary hg.ok hxs hg.summary h3
  have hroom := room_part hg.ok o2 (fun p hp => (o5 p).2 (Or.inr hp)) hxs hg.summary sl hop hgrid.deps
  obtain ⟨xs', hsum', hfr⟩ := shift_core hop henv he o2 sl hroom h5 h7 h8 hxs
  obtain ⟨k1, k2⟩ := shift_cells hop o2 (span_shift h5).1 h7
  have hsh := shiftDomain_spec h7 o2
  refine ⟨om, xs', su, hsum', o1, hsh.ok, o3, by rw [hsh.sheet]; exact o4, h6, (span_noOp hop h4).2.2, fun p' hp' => ?_,
    fun p hp => ?_, fun p hp => (o5 p).2 (Or.inl hp), fun g hgf => ⟨noOp_core hop henv he o1 su h4 hgf, fun f' hm => ?_⟩⟩
  · obtain ⟨p, hp, hm⟩ := k2 p' hp'
    refine ⟨p, (o5 p).2 (Or.inr hp), hm, fun g g' hgf hmv => ?_⟩
    obtain ⟨p'', hmv', -⟩ := k1 p hp
    obtain rfl : p'' = p' := Option.some.inj (hmv'.move.symm.trans hm)
    exact (hfr hgf hmv).2 p p'' hp hmv'
  · rcases (o5 p).1 hp with hp | hp
    · exact Or.inl hp
    · obtain ⟨p', hm, hp'⟩ := k1 p hp
      exact Or.inr ⟨p', hm.move, hp'⟩
  · exact (hfr hgf hm).1

/-- The two halves, cell by cell, if the template is the span's own. -/
theorem halves_cells (hop : op.Fits) (henv : env.Ok) (he : EnvMoves op env env') (hg : Good env s)
    (hgrid : Grid op s) (hown : s.Own) (h : apply env op s = .halves u l) : Good env' u ∧ Good env' l ∧ u.Own ∧ l.Own ∧
      (∀ p' : Key, u.result.Has p' → ∃ p, s.result.Has p ∧ op.move p = some p' ∧ FramesTrack op env env' s u p p') ∧
      ∀ p' : Key, l.result.Has p' → ∃ p, s.result.Has p ∧ op.move p = some p' ∧ FramesTrack op env env' s l p p' := by
  obtain ⟨xs, hg⟩ := hg
  obtain ⟨om, xs', su, sl, o1, o2, o3, o4, hm, c1, c2, c3, c4, c5⟩ := halves_core hop henv he hg hgrid h
  obtain ⟨t1, t2⟩ := c5 _ hg.template
  obtain ⟨s1, s2⟩ := c5 _ hg.shown
  obtain ⟨e1, e2⟩ := c5 _ hg.evaluated
  obtain ⟨upper, lower, du, dl, om', f, result, deps, h1, h2, h3, h4, h5, h6, h7, h8, rfl, rfl⟩ := halves_plan h
  dsimp only at *
  have hmt : s.template.move (if om then op.rowDelta else 0) (if om then op.colDelta else 0) =
      some ⟨f.origin, s.template.refs⟩ := by
    unfold Frame.move at hm ⊢
    rw [hown]
    cases r1 : checkedShift s.shown.origin.row (if om then op.rowDelta else 0) with
    | none => rw [r1] at hm; cases hm
    | some r =>
      cases r2 : checkedShift s.shown.origin.col (if om then op.colDelta else 0) with
      | none => rw [r1, r2] at hm; cases hm
      | some c =>
        rw [r1, r2] at hm
        cases hm
        rfl
  have ft := t2 _ hmt
  refine ⟨⟨xs, o1, by rw [o3]; exact t1.1, by rw [o3]; exact s1.1, by rw [o3]; exact e1.1, su⟩,
    ⟨xs', o2, by rw [o4]; exact ft, by rw [o4]; exact s2 _ hm, by rw [o4]; exact ft, sl⟩, hown, rfl, fun p' hp' => ?_,
    fun p' hp' => ?_⟩
  · exact ⟨p', c4 p' hp', c1 p' hp', t1.2 p' hp', s1.2 p' hp', e1.2 p' hp'⟩
  · obtain ⟨p, hp, m1, m3⟩ := c2 p' hp'
    exact ⟨p, hp, m1, m3 _ _ hg.template hmt, m3 _ _ hg.shown hm,
      frame_swap henv he.ok hg.template hg.evaluated ft (m3 _ _ hg.template hmt)⟩

/-- **A span that is cut in two.**  If the template is the span's own, the cells of the two halves are the cells of the
span, where the operation puts them, and the formulas follow. -/
theorem halves_tracks_partial (hop : op.Fits) (henv : env.Ok) (he : EnvMoves op env env') (hg : Good env s)
    (hgrid : Grid op s) (hown : s.Own) (h : apply env op s = .halves u l) : Good env' u ∧ Good env' l ∧ u.Own ∧ l.Own ∧
      (∀ p : Key, s.result.Has p → ∃ p', op.move p = some p' ∧ (u.result.Has p' ∧ FramesTrack op env env' s u p p' ∨
        l.result.Has p' ∧ FramesTrack op env env' s l p p')) ∧
      ∀ p' : Key, u.result.Has p' ∨ l.result.Has p' → ∃ p, s.result.Has p ∧ op.move p = some p' := by
  obtain ⟨g1, g2, g3, g4, g5, g6⟩ := halves_cells hop henv he hg hgrid hown h
  obtain ⟨xs, hg⟩ := hg
  obtain ⟨om, xs', -, -, -, -, -, -, -, c1, -, c3, -⟩ := halves_core hop henv he hg hgrid h
  refine ⟨g1, g2, g3, g4, fun p hp => ?_, ?_⟩
  · rcases c3 p hp with hu | ⟨p', m1, m2⟩
    · obtain ⟨q, -, m, t⟩ := g5 p hu
      obtain rfl : q = p := move_inj m (c1 p hu)
      exact ⟨q, m, Or.inl ⟨hu, t⟩⟩
    · obtain ⟨q, -, m, t⟩ := g6 p' m2
      obtain rfl : q = p := move_inj m m1
      exact ⟨p', m, Or.inr ⟨m2, t⟩⟩
  · rintro p' (hp' | hp')
    · obtain ⟨p, h1, h2, -⟩ := g5 p' hp'; exact ⟨p, h1, h2⟩
    · obtain ⟨p, h1, h2, -⟩ := g6 p' hp'; exact ⟨p, h1, h2⟩

/-- Whatever the template, the formula shown follows. -/
theorem halves_shown (hop : op.Fits) (henv : env.Ok) (he : EnvMoves op env env') (hg : Good env s) (hgrid : Grid op s)
    (h : apply env op s = .halves u l) : ∀ p : Key, s.result.Has p → ∃ p', op.move p = some p' ∧
      (u.result.Has p' ∧ s.shown.Tracks op env env' u.shown p p' ∨ l.result.Has p' ∧ s.shown.Tracks op env env' l.shown p p') := by
  obtain ⟨xs, hg⟩ := hg
  obtain ⟨om, xs', su, sl, o1, o2, o3, o4, hm, c1, c2, c3, c4, c5⟩ := halves_core hop henv he hg hgrid h
  obtain ⟨s1, s2⟩ := c5 _ hg.shown
  obtain ⟨upper, lower, du, dl, om', f, result, deps, h1, h2, h3, h4, h5, h6, h7, h8, rfl, rfl⟩ := halves_plan h
  dsimp only at *
  intro p hp
  rcases c3 p hp with hu | ⟨p', m1, m2⟩
  · exact ⟨p, c1 p hu, Or.inl ⟨hu, s1.2 p hu⟩⟩
  · obtain ⟨q, -, m, t⟩ := c2 p' m2
    obtain rfl : q = p := move_inj m m1
    exact ⟨p', m1, Or.inr ⟨m2, t _ _ hg.shown hm⟩⟩

end

end Verif.Plane.Edit

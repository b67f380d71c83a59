/-
The projections of a formula are its references, and the cells that a change makes stale are marked.
-/
import Verif.Plane.Reads

namespace Verif.Plane

/-- A projection says what a reference denotes. -/
def SameReads (env : Env) (anchor : Key) (r : Ref) (x : Nat × Rule) : Prop :=
  x.2 ≠ .wholeResult ∧ x.2.Fits ∧ (∀ a b, x.2 = .wholeCols a b → r.WholeCols) ∧ ∀ p k : Key, r.Denotes env anchor p k ↔ x.2.Reads x.1 p k

theorem mem_pushProjection (ps : List (Nat × Rule)) (x y : Nat × Rule) :
    y ∈ pushProjection ps x ↔ y ∈ ps ∨ y = x := by
  unfold pushProjection
  split
  · next h =>
    exact ⟨Or.inl, fun h' => h'.elim id fun e => e ▸ h⟩
  · simp

theorem axisProjection_at {i : Nat} (abs : Bool) (a p : Nat) (h : 1 ≤ i) :
    (axisProjection i abs (a + 1)).at_ p = moved i abs a p := by
  unfold axisProjection moved
  cases abs
  · simp only [Bool.false_eq_true, if_false, AxisProj.at_]; omega
  · simp only [if_true, AxisProj.at_]; omega

theorem axisProjection_fits {i : Nat} (abs : Bool) (a : Nat) (h : i ≤ u32Max) :
    ∀ j, axisProjection i abs a = .abs j → j ≤ u32Max := by
  intro j hj
  unfold axisProjection at hj
  split at hj
  · cases hj; omega
  · cases hj

/-- What a visit of one reference adds. -/
theorem visitRef_spec {env : Env} (hok : env.Ok) {anchor : Key} {ps out : List (Nat × Rule)} {ctx : Ctx} {inArg : Bool}
    {r : Ref} (hw : r.Written)
    (h : visitRef env anchor.sheet (anchor.row + 1) (anchor.col + 1) ps ctx inArg r = some out) :
    ∃ x, SameReads env anchor r x ∧ ∀ y, y ∈ out ↔ y ∈ ps ∨ y = x := by
  cases r with
  | other => cases h
  | name n =>
    simp only [visitRef, visitName] at h
    have hn := hok n
    cases hname : env.name n with
    | none => rw [hname] at h; cases h
    | some t =>
      rw [hname] at h hn
      cases t with
      | other => cases h
      | cell sheet row col =>
        dsimp only at h hn
        obtain rfl := Option.some.inj h
        refine ⟨(sheet, .cell (.abs row) (.abs col)), ⟨by simp, ?_, by simp [Ref.WholeCols], fun p k => ?_⟩, fun y => mem_pushProjection _ _ _⟩
        · exact ⟨fun i hi => by cases hi; exact hn.1, fun i hi => by cases hi; exact hn.2⟩
        · obtain ⟨ks, kr, kc⟩ := k
          simp only [Ref.Denotes, hname, Rule.Reads, AxisProj.at_, Key.mk.injEq]
          omega
      | range sheet row col sheet' row' col' =>
        dsimp only at h hn
        split at h
        · cases h
        · split at h
          · cases h
          · next hs =>
            obtain rfl := Option.some.inj h
            refine ⟨_, ⟨by simp, ?_, by simp [Ref.WholeCols], fun p k => ?_⟩, fun y => mem_pushProjection _ _ _⟩
            · refine ⟨fun i hi => ?_, fun i hi => ?_, fun i hi => ?_, fun i hi => ?_⟩ <;> cases hi <;> omega
            · simp only [Ref.Denotes, hname, Rule.Reads, AxisProj.at_, Between]
              omega
  | cell sheet row col ra ca =>
    simp only [visitRef] at h
    cases hs : sheetOf env anchor.sheet sheet with
    | none => rw [hs] at h; cases h
    | some s =>
      rw [hs] at h
      obtain rfl := Option.some.inj h
      refine ⟨_, ⟨by simp, ?_, by simp [Ref.WholeCols], fun p k => ?_⟩, fun y => mem_pushProjection _ _ _⟩
      · exact ⟨axisProjection_fits _ _ hw.1.2, axisProjection_fits _ _ hw.2.2⟩
      simp only [Ref.Denotes, Rule.Reads, hs, axisProjection_at _ _ _ hw.1.1, axisProjection_at _ _ _ hw.2.1,
        Option.some.injEq, eq_comm]
  | range sheet sr sc er ec sra sca era eca =>
    simp only [visitRef] at h
    cases hs : sheetOf env anchor.sheet sheet with
    | none => rw [hs] at h; cases h
    | some s =>
      rw [hs] at h
      dsimp only at h
      obtain ⟨w1, w2, w3, w4⟩ := hw
      split at h
      · cases h
      · split at h
        · next sc' ec' =>
          split at h
          · cases h
          · obtain rfl := Option.some.inj h
            refine ⟨_, ⟨by simp, ?_, by simp [Ref.WholeCols], fun p k => ?_⟩, fun y => mem_pushProjection _ _ _⟩
            · exact ⟨axisProjection_fits _ _ (w2 _ rfl).2, axisProjection_fits _ _ (w4 _ rfl).2⟩
            simp only [Ref.Denotes, Rule.Reads, hs, axisProjection_at _ _ _ (w2 _ rfl).1,
              axisProjection_at _ _ _ (w4 _ rfl).1, Option.some.injEq, Covers, true_and]
            rw [eq_comm]
        · obtain rfl := Option.some.inj h
          refine ⟨_, ⟨by simp, ?_, by simp [Ref.WholeCols], fun p k => ?_⟩, fun y => mem_pushProjection _ _ _⟩
          · exact ⟨axisProjection_fits _ _ (w1 _ rfl).2, axisProjection_fits _ _ (w3 _ rfl).2,
              axisProjection_fits _ _ (w2 _ rfl).2, axisProjection_fits _ _ (w4 _ rfl).2⟩
          simp only [Ref.Denotes, Rule.Reads, hs, axisProjection_at _ _ _ (w2 _ rfl).1, axisProjection_at _ _ _ (w1 _ rfl).1,
            axisProjection_at _ _ _ (w3 _ rfl).1,
            axisProjection_at _ _ _ (w4 _ rfl).1, Option.some.injEq, Covers]
          rw [eq_comm]
        · cases h

/-- What a visit collects: for each reference of `refs` its projection, and nothing else. -/
structure Collects (env : Env) (anchor : Key) (refs : List Ref) (ps out : List (Nat × Rule)) : Prop where
  keeps : ∀ y ∈ ps, y ∈ out
  covers : ∀ r ∈ refs, ∃ y ∈ out, SameReads env anchor r y
  only : ∀ y ∈ out, y ∈ ps ∨ ∃ r ∈ refs, SameReads env anchor r y

theorem Collects.refl (env : Env) (anchor : Key) (ps : List (Nat × Rule)) : Collects env anchor [] ps ps :=
  ⟨fun _ h => h, fun _ h => (List.not_mem_nil h).elim, fun _ h => Or.inl h⟩

theorem Collects.trans {env : Env} {anchor : Key} {a b : List Ref} {ps mid out : List (Nat × Rule)}
    (h1 : Collects env anchor a ps mid) (h2 : Collects env anchor b mid out) : Collects env anchor (a ++ b) ps out := by
  refine ⟨fun y hy => h2.keeps y (h1.keeps y hy), fun r hr => ?_, fun y hy => ?_⟩
  · rcases List.mem_append.1 hr with hr | hr
    · obtain ⟨y, hy, hs⟩ := h1.covers r hr
      exact ⟨y, h2.keeps y hy, hs⟩
    · exact h2.covers r hr
  · rcases h2.only y hy with h | ⟨r, hr, hs⟩
    · rcases h1.only y h with h | ⟨r, hr, hs⟩
      · exact Or.inl h
      · exact Or.inr ⟨r, List.mem_append_left _ hr, hs⟩
    · exact Or.inr ⟨r, List.mem_append_right _ hr, hs⟩

mutual

theorem visit_collects {env : Env} (hok : env.Ok) {anchor : Key} : ∀ (e : Expr) {ps out : List (Nat × Rule)} {ctx : Ctx}
    {inArg : Bool}, (∀ r ∈ e.refs, r.Written) →
    visit env anchor.sheet (anchor.row + 1) (anchor.col + 1) ps ctx inArg e = some out →
    Collects env anchor e.refs ps out
  | .lit, ps, out, ctx, inArg, _, h => by
    simp only [visit] at h
    split at h
    · obtain rfl := Option.some.inj h; exact Collects.refl _ _ _
    · cases h
  | .omitted, ps, out, ctx, inArg, _, h => by
    simp only [visit] at h
    split at h
    · obtain rfl := Option.some.inj h; exact Collects.refl _ _ _
    · cases h
  | .ref r, ps, out, ctx, inArg, hw, h => by
    simp only [visit] at h
    obtain ⟨x, hx, hy⟩ := visitRef_spec hok (hw r (by simp [Expr.refs])) h
    simp only [Expr.refs]
    refine ⟨fun y h' => (hy y).2 (Or.inl h'), fun r' hr' => ?_, fun y h' => ?_⟩
    · rw [List.mem_singleton.1 hr']; exact ⟨x, (hy x).2 (Or.inr rfl), hx⟩
    · rcases (hy y).1 h' with h' | rfl
      · exact Or.inl h'
      · exact Or.inr ⟨r, List.mem_singleton.2 rfl, hx⟩
  | .unary op e, ps, out, ctx, inArg, hw, h => by
    simp only [visit] at h
    split at h
    · simp only [Expr.refs] at hw ⊢
      exact visit_collects hok e hw h
    · cases h
  | .binary op l r, ps, out, ctx, inArg, hw, h => by
    simp only [visit] at h
    simp only [Expr.refs] at hw ⊢
    split at h
    · cases h1 : visit env anchor.sheet (anchor.row + 1) (anchor.col + 1) ps ctx inArg l with
      | none => rw [h1] at h; cases h
      | some mid =>
        rw [h1] at h
        exact (visit_collects hok l (fun r hr => hw r (List.mem_append_left _ hr)) h1).trans
          (visit_collects hok r (fun r hr => hw r (List.mem_append_right _ hr)) h)
    · cases h
  | .func name args, ps, out, ctx, inArg, hw, h => by
    simp only [visit] at h
    simp only [Expr.refs] at hw ⊢
    split at h
    · cases h1 : visitArgs env anchor.sheet (anchor.row + 1) (anchor.col + 1) ps name args.length 0 args with
      | none => rw [h1] at h; cases h
      | some mid =>
        rw [h1] at h
        dsimp only at h
        split at h
        · obtain rfl := Option.some.inj h
          exact visitArgs_collects hok args hw h1
        · cases h
    · cases h
  | .call, _, _, _, _, _, h => by simp [visit] at h
  | .array, _, _, _, _, _, h => by simp [visit] at h

theorem visitArgs_collects {env : Env} (hok : env.Ok) {anchor : Key} : ∀ (es : List Expr) {ps out : List (Nat × Rule)}
    {fname : String} {arity i : Nat}, (∀ r ∈ Expr.refsList es, r.Written) →
    visitArgs env anchor.sheet (anchor.row + 1) (anchor.col + 1) ps fname arity i es = some out →
    Collects env anchor (Expr.refsList es) ps out
  | [], ps, out, fname, arity, i, _, h => by
    simp only [visitArgs] at h
    obtain rfl := Option.some.inj h
    exact Collects.refl _ _ _
  | e :: es, ps, out, fname, arity, i, hw, h => by
    simp only [visitArgs] at h
    simp only [Expr.refsList] at hw ⊢
    split at h
    · cases h
    · next mid h1 =>
      exact (visit_collects hok e (fun r hr => hw r (List.mem_append_left _ hr)) h1).trans
        (visitArgs_collects hok es (fun r hr => hw r (List.mem_append_right _ hr)) h)

end

/-- The projections of a formula say what its references denote at every placement, and there is nothing else among
them. -/
theorem readProjections_spec {env : Env} (hok : env.Ok) {anchor : Key} {e : Expr} {ps : List (Nat × Rule)}
    (hw : ∀ r ∈ e.refs, r.Written) (h : readProjections env anchor e = some ps) :
    (∀ x ∈ ps, x.2 ≠ .wholeResult ∧ x.2.Fits ∧ ∀ a b, x.2 = .wholeCols a b → ∃ r ∈ e.refs, r.WholeCols) ∧
    ∀ p k : Key, (∃ r ∈ e.refs, r.Denotes env anchor p k) ↔ ∃ x ∈ ps, x.2.Reads x.1 p k := by
  have hc := visit_collects hok e hw h
  refine ⟨fun x hx => ?_, fun p k => ⟨?_, ?_⟩⟩
  · rcases hc.only x hx with h' | ⟨r, hr, hs⟩
    · cases h'
    · exact ⟨hs.1, hs.2.1, fun a b e => ⟨r, hr, hs.2.2.1 a b e⟩⟩
  · rintro ⟨r, hr, hd⟩
    obtain ⟨x, hx, hs⟩ := hc.covers r hr
    exact ⟨x, hx, (hs.2.2.2 p k).1 hd⟩
  · rintro ⟨x, hx, hr⟩
    rcases hc.only x hx with h' | ⟨r, hr', hs⟩
    · cases h'
    · exact ⟨r, hr', (hs.2.2.2 p k).2 hr⟩

/-- A formula whose projections are all constant reads the same cells wherever it is placed. -/
theorem constant_reads {env : Env} (hok : env.Ok) {anchor : Key} {e : Expr} {ps : List (Nat × Rule)}
    (hw : ∀ r ∈ e.refs, r.Written) (h : readProjections env anchor e = some ps) (hc : ps.all fun x => isConstant x.2)
    (p q k : Key) : (∃ r ∈ e.refs, r.Denotes env anchor p k) ↔ ∃ r ∈ e.refs, r.Denotes env anchor q k := by
  rw [(readProjections_spec hok hw h).2, (readProjections_spec hok hw h).2]
  have key : ∀ x ∈ ps, x.2.Reads x.1 p k ↔ x.2.Reads x.1 q k := by
    rintro ⟨s, rule⟩ hx
    have := List.all_eq_true.1 hc _ hx
    have habs : ∀ a : AxisProj, isAbsolute a = true → ∀ x y, a.at_ x = a.at_ y := by
      rintro (_ | _) h x y
      · cases h
      · rfl
    cases rule with
    | cell r c =>
      simp only [isConstant, Bool.and_eq_true] at this
      simp only [Rule.Reads, habs r this.1 p.row q.row, habs c this.2 p.col q.col]
    | range a b c d =>
      simp only [isConstant, Bool.and_eq_true] at this
      simp only [Rule.Reads, habs a this.1.1.1 p.row q.row, habs b this.1.1.2 p.row q.row, habs c this.1.2 p.col q.col,
        habs d this.2 p.col q.col]
    | wholeCols c d =>
      simp only [isConstant, Bool.and_eq_true] at this
      simp only [Rule.Reads, habs c this.1 p.col q.col, habs d this.2 p.col q.col]
    | wholeResult => cases this
  exact ⟨fun ⟨x, hx, h⟩ => ⟨x, hx, (key x hx).1 h⟩, fun ⟨x, hx, h⟩ => ⟨x, hx, (key x hx).2 h⟩⟩

theorem mem_pushDeps (rule : Rule) (rs : List Region) : ∀ (ds : List Dependency) (d : Dependency),
    d ∈ pushDeps rule ds rs ↔ d ∈ ds ∨ (d.rule = rule ∧ d.read ∈ rs) := by
  induction rs with
  | nil => intro ds d; simp [pushDeps]
  | cons r rs ih =>
    intro ds d
    have : pushDeps rule ds (r :: rs) =
        pushDeps rule (if (⟨r, rule⟩ : Dependency) ∈ ds then ds else ds ++ [⟨r, rule⟩]) rs := rfl
    rw [this, ih]
    have h1 : d ∈ (if (⟨r, rule⟩ : Dependency) ∈ ds then ds else ds ++ [⟨r, rule⟩]) ↔
        d ∈ ds ∨ (d.rule = rule ∧ d.read = r) := by
      have heq : d = ⟨r, rule⟩ ↔ d.rule = rule ∧ d.read = r := by
        obtain ⟨a, b⟩ := d
        simp only [Dependency.mk.injEq]
        exact And.comm
      split
      · next h => exact ⟨Or.inl, fun h' => h'.elim id fun e => (heq.2 e) ▸ h⟩
      · rw [List.mem_append, List.mem_singleton, heq]
    rw [h1, List.mem_cons]
    constructor
    · rintro ((h | h) | h)
      · exact Or.inl h
      · exact Or.inr ⟨h.1, Or.inl h.2⟩
      · exact Or.inr ⟨h.1, Or.inr h.2⟩
    · rintro (h | ⟨h, h' | h'⟩)
      · exact Or.inl (Or.inl h)
      · exact Or.inl (Or.inr ⟨h, h'⟩)
      · exact Or.inr ⟨h, h'⟩

theorem readSummary_spec {result : Region} : ∀ (ps : List (Nat × Rule)) {ds out : List Dependency},
    readSummary result ds ps = some out →
    (∀ d ∈ out, d ∈ ds ∨ ∃ x ∈ ps, d.rule = x.2 ∧ ∃ rs, x.2.readRegions x.1 result = some rs ∧ d.read ∈ rs) ∧
    (∀ d ∈ ds, d ∈ out) ∧
    ∀ x ∈ ps, ∃ rs, x.2.readRegions x.1 result = some rs ∧ ∀ r ∈ rs, (⟨r, x.2⟩ : Dependency) ∈ out := by
  intro ps
  induction ps with
  | nil =>
    intro ds out h
    obtain rfl := Option.some.inj h
    exact ⟨fun d hd => Or.inl hd, fun d hd => hd, fun x hx => by cases hx⟩
  | cons x ps ih =>
    intro ds out h
    simp only [readSummary] at h
    cases h1 : x.2.readRegions x.1 result with
    | none => rw [h1] at h; cases h
    | some rs =>
      rw [h1] at h
      obtain ⟨i1, i2, i3⟩ := ih h
      refine ⟨fun d hd => ?_, fun d hd => i2 d ((mem_pushDeps _ _ _ _).2 (Or.inl hd)), fun y hy => ?_⟩
      · rcases i1 d hd with h2 | ⟨y, hy, h2⟩
        · rcases (mem_pushDeps _ _ _ _).1 h2 with h2 | ⟨h2, h3⟩
          · exact Or.inl h2
          · exact Or.inr ⟨x, List.mem_cons_self, h2, rs, h1, h3⟩
        · exact Or.inr ⟨y, List.mem_cons_of_mem _ hy, h2⟩
      · rcases List.mem_cons.1 hy with rfl | hy
        · exact ⟨rs, h1, fun r hr => i2 _ ((mem_pushDeps _ _ _ _).2 (Or.inr ⟨rfl, hr⟩))⟩
        · exact i3 y hy

/-- The read regions of a whole-column reference are whole columns on its sheet. -/
theorem wholeCols_regions {cs ce : AxisProj} {sheet : Nat} {result : Region} {reads : List Region}
    (h : (Rule.wholeCols cs ce).readRegions sheet result = some reads) : ∀ r ∈ reads, r.sheet = sheet := by
  simp only [Rule.readRegions] at h
  split at h
  · cases h
  · split at h
    · cases h
    · split at h
      · cases h
      · split at h
        · cases h
        · obtain rfl := Option.some.inj h
          intro r hr
          obtain ⟨i, -, rfl⟩ := List.mem_map.1 hr
          rfl

theorem readRegion_sheet {rule : Rule} {sheet : Nat} {result read : Region}
    (h : rule.readRegion sheet result = some read) : read.sheet = sheet := by
  cases rule <;> simp only [Rule.readRegion] at h
  · split at h
    · cases h
    · split at h
      · cases h
      · split at h
        · cases h
        · obtain rfl := Option.some.inj h
          rfl
  · split at h
    · cases h
    · split at h
      · cases h
      · split at h
        · cases h
        · obtain rfl := Option.some.inj h
          rfl
  all_goals cases h

/-- The entries that one projection gives: each is well made, and together they say what the projection reads. -/
theorem regions_spec {P : Type} (c : P) {x : Nat × Rule} {result : Region} {rs : List Region} (hres : result.Ok)
    (hx : x.2 ≠ .wholeResult) (hf : x.2.Fits) (h : x.2.readRegions x.1 result = some rs) :
    (∀ r ∈ rs, (⟨c, r, result, x.2⟩ : Entry P).Ok) ∧
    ∀ p k : Key, k.Fits → result.Has p →
      (x.2.Reads x.1 p k ↔ ∃ r ∈ rs, (⟨c, r, result, x.2⟩ : Entry P).Reads p k) := by
  have affine : (x.2.readRegion x.1 result).map (fun r => [r]) = some rs →
      (∀ r ∈ rs, (⟨c, r, result, x.2⟩ : Entry P).Ok) ∧
      ∀ p k : Key, k.Fits → result.Has p →
        (x.2.Reads x.1 p k ↔ ∃ r ∈ rs, (⟨c, r, result, x.2⟩ : Entry P).Reads p k) := by
    intro h
    cases h1 : x.2.readRegion x.1 result with
    | none => rw [h1] at h; cases h
    | some r =>
      rw [h1] at h
      obtain rfl := Option.some.inj h
      have hs := readRegion_sheet h1
      obtain ⟨c1, c2⟩ := readRegion_covers hres hf h1
      refine ⟨fun r' hr' => ?_, fun p k hk hp => ?_⟩
      · rw [List.mem_singleton.1 hr']
        exact ⟨hres, c1, hf, Or.inr (Or.inl (by dsimp only; rw [hs]; exact h1))⟩
      · simp only [List.mem_singleton, exists_eq_left, Entry.Reads, hs]
        exact ⟨fun h => ⟨c2 p k hp h, Or.inr h⟩, fun h => h.2.resolve_left hx⟩
  obtain ⟨s, rule⟩ := x
  cases rule with
  | wholeResult => exact absurd rfl hx
  | cell a b => exact affine h
  | range a b c d => exact affine h
  | wholeCols a b =>
    have hs := wholeCols_regions h
    refine ⟨fun r hr => ?_, fun p k hk hp => ?_⟩
    · exact ⟨hres, (wholeCols_sound hres hres hf h).1 r hr, hf, Or.inr (Or.inr ⟨a, b, rfl⟩)⟩
    · constructor
      · intro hrd
        obtain ⟨r, hr, hk', -⟩ := (wholeCols_sound (changed := ⟨k.sheet, .all, .all⟩) hres ⟨trivial, trivial⟩ hf h).2 p k hk hp
          ⟨rfl, trivial, trivial⟩ hrd
        refine ⟨r, hr, hk', Or.inr ?_⟩
        show Rule.Reads _ r.sheet p k
        rw [hs r hr]
        exact hrd
      · rintro ⟨r, hr, -, h2⟩
        rcases h2 with h2 | h2
        · cases h2
        · have h2' : Rule.Reads (.wholeCols a b) r.sheet p k := h2
          rw [hs r hr] at h2'
          exact h2'

/-- The dependencies of a span: each is well made, and together they say what the references of the formula denote. -/
theorem Span.deps_spec {P : Type} {env : Env} (hok : env.Ok) {s : Span P} {ds : List Dependency} (hres : s.result.Ok)
    (hw : ∀ r ∈ s.formula.refs, r.Written) (h : s.deps env = some ds) :
    (∀ d ∈ ds, (⟨s.id, d.read, s.result, d.rule⟩ : Entry P).Ok) ∧
    (∀ d ∈ ds, d.rule ≠ .wholeResult ∧ ∀ a b, d.rule = .wholeCols a b → ∃ r ∈ s.formula.refs, r.WholeCols) ∧
    (∀ p k : Key, k.Fits → s.result.Has p →
      (s.Reads env p k ↔ ∃ d ∈ ds, (⟨s.id, d.read, s.result, d.rule⟩ : Entry P).Reads p k)) ∧
    ∀ p k : Key, k.Fits → s.result.Has p → s.Reads env p k → ¬ s.result.Has k := by
  unfold Span.deps at h
  cases h1 : readProjections env s.anchor s.formula with
  | none => rw [h1] at h; cases h
  | some ps =>
    rw [h1] at h
    dsimp only at h
    unfold prepareDomain at h
    obtain ⟨p1, p2⟩ := readProjections_spec hok hw h1
    cases h2 : readSummary s.result [] ps with
    | none => rw [h2] at h; cases h
    | some ds' =>
      rw [h2] at h
      dsimp only at h
      split at h
      · cases h
      · next hself =>
        obtain rfl := Option.some.inj h
        obtain ⟨i1, -, i3⟩ := readSummary_spec ps h2
        have o1 : ∀ d ∈ ds', (⟨s.id, d.read, s.result, d.rule⟩ : Entry P).Ok := by
          intro d hd
          rcases i1 d hd with h3 | ⟨x, hx, e, rs, hrs, hr⟩
          · cases h3
          · have := (regions_spec s.id hres (p1 x hx).1 (p1 x hx).2.1 hrs).1 d.read hr
            rw [e]
            exact this
        have o2 : ∀ d ∈ ds', d.rule ≠ .wholeResult ∧
            ∀ a b, d.rule = .wholeCols a b → ∃ r ∈ s.formula.refs, r.WholeCols := by
          intro d hd
          rcases i1 d hd with h3 | ⟨x, hx, e, -⟩
          · cases h3
          · rw [e]; exact ⟨(p1 x hx).1, (p1 x hx).2.2⟩
        have o3 : ∀ p k : Key, k.Fits → s.result.Has p →
            (s.Reads env p k ↔ ∃ d ∈ ds', (⟨s.id, d.read, s.result, d.rule⟩ : Entry P).Reads p k) := by
          intro p k hk hp
          unfold Span.Reads
          rw [p2 p k]
          constructor
          · rintro ⟨x, hx, hr⟩
            obtain ⟨rs, hrs, hmem⟩ := i3 x hx
            obtain ⟨r, hr', he⟩ := ((regions_spec s.id hres (p1 x hx).1 (p1 x hx).2.1 hrs).2 p k hk hp).1 hr
            exact ⟨_, hmem r hr', he⟩
          · rintro ⟨d, hd, he⟩
            rcases i1 d hd with h3 | ⟨x, hx, e, rs, hrs, hr⟩
            · cases h3
            · refine ⟨x, hx, ((regions_spec s.id hres (p1 x hx).1 (p1 x hx).2.1 hrs).2 p k hk hp).2 ⟨d.read, hr, ?_⟩⟩
              rw [← e]
              exact he
        refine ⟨o1, o2, o3, fun p k hk hp hr hin => hself ?_⟩
        obtain ⟨d, hd, he⟩ := (o3 p k hk hp).1 hr
        exact List.any_eq_true.2 ⟨d, hd, (Region.intersects_iff (o1 d hd).read hres).2 ⟨k, hk, he.1, hin⟩⟩

/-- What a list of spans must satisfy: the formulas were accepted, the producers differ, and the coordinates are those of
a sheet. -/
structure SpansOk {P : Type} (env : Nat → Env) (spans : List (Span P)) : Prop where
  names : ∀ n, (env n).Ok
  ids : (spans.map Span.id).Nodup
  result : ∀ s ∈ spans, s.result.Ok
  written : ∀ s ∈ spans, ∀ r ∈ s.formula.refs, r.Written
  accepted : ∀ s ∈ spans, ∃ ds, s.deps (env s.anchor.sheet) = some ds

section
variable {P : Type} [DecidableEq P] {env : Nat → Env} {spans : List (Span P)}

theorem resultOf_mem (h : (spans.map Span.id).Nodup) {s : Span P} (hs : s ∈ spans) :
    resultOf spans s.id = some s.result := by
  unfold resultOf
  induction spans with
  | nil => cases hs
  | cons a spans ih =>
    rw [List.map_cons, List.nodup_cons] at h
    by_cases ha : a.id = s.id
    · have : a = s := by
        rcases List.mem_cons.1 hs with e | hs
        · exact e.symm
        · exact absurd (List.mem_map.2 ⟨s, hs, ha.symm⟩) h.1
      rw [List.find?_cons_of_pos (by simpa using ha), this]
      rfl
    · rw [List.find?_cons_of_neg (by simpa using ha)]
      rcases List.mem_cons.1 hs with e | hs
      · exact absurd (congrArg Span.id e).symm ha
      · exact ih h.2 hs

omit [DecidableEq P] in
theorem mem_readEntries {e : Entry P} (hk : SpansOk env spans) :
    e ∈ readEntries env spans ↔ ∃ s ∈ spans, ∃ ds, s.deps (env s.anchor.sheet) = some ds ∧
      ∃ d ∈ ds, e = ⟨s.id, d.read, s.result, d.rule⟩ := by
  unfold readEntries
  rw [List.mem_flatMap]
  refine exists_congr fun s => and_congr_right fun hs => ?_
  obtain ⟨ds, h⟩ := hk.accepted s hs
  rw [h]
  simp only [Option.getD_some, List.mem_map, Option.some.injEq, exists_eq_left']
  exact exists_congr fun d => and_congr_right fun _ => eq_comm

theorem entries_sound (hk : SpansOk env spans) :
    Closure.Sound (readEntries env spans) (resultOf spans) (consumerQuery (readEntries env spans)) := by
  refine Closure.sound_of _ _ (fun e he => ?_) fun e he => ?_
  · obtain ⟨s, hs, ds, h, d, hd, rfl⟩ := (mem_readEntries hk).1 he
    exact (Span.deps_spec (hk.names _) (hk.result s hs) (hk.written s hs) h).1 d hd
  · obtain ⟨s, hs, ds, h, d, hd, rfl⟩ := (mem_readEntries hk).1 he
    exact resultOf_mem hk.ids hs

/-- The cells that must be recomputed according to the formulas are those that must be recomputed according to the read
index. -/
theorem stale_iff (hk : SpansOk env spans) (changed : List Region) (c : P) (p : Key) :
    Stale env spans changed c p ↔ Closure.Affected (readEntries env spans) changed c p := by
  have fwd : ∀ s ∈ spans, ∀ p k : Key, k.Fits → s.result.Has p → s.Reads (env s.anchor.sheet) p k →
      ∃ e ∈ readEntries env spans, e.consumer = s.id ∧ e.result = s.result ∧ e.Reads p k := by
    intro s hs p k hkf hp hr
    obtain ⟨ds, h⟩ := hk.accepted s hs
    obtain ⟨d, hd, he⟩ := ((Span.deps_spec (hk.names _) (hk.result s hs) (hk.written s hs) h).2.2.1 p k hkf hp).1 hr
    exact ⟨_, (mem_readEntries hk).2 ⟨s, hs, ds, h, d, hd, rfl⟩, rfl, rfl, he⟩
  have bwd : ∀ e ∈ readEntries env spans, ∀ p k : Key, k.Fits → e.result.Has p → e.Reads p k →
      ∃ s ∈ spans, s.id = e.consumer ∧ s.result = e.result ∧ s.Reads (env s.anchor.sheet) p k := by
    intro e he p k hkf hp hr
    obtain ⟨s, hs, ds, h, d, hd, rfl⟩ := (mem_readEntries hk).1 he
    exact ⟨s, hs, rfl, rfl,
      ((Span.deps_spec (hk.names _) (hk.result s hs) (hk.written s hs) h).2.2.1 p k hkf hp).2 ⟨d, hd, hr⟩⟩
  constructor
  · intro h
    induction h with
    | direct hs hp hr hkf hrk hrd =>
      obtain ⟨e, he, e1, e2, e3⟩ := fwd _ hs _ _ hkf hp hrd
      rw [← e1]
      exact .direct he hr hkf hrk (e2 ▸ hp) e3
    | step _ hkf hs hp hrd ih =>
      obtain ⟨e, he, e1, e2, e3⟩ := fwd _ hs _ _ hkf hp hrd
      rw [← e1]
      exact .step ih hkf he (e2 ▸ hp) e3
  · intro h
    induction h with
    | direct he hr hkf hrk hp hrd =>
      obtain ⟨s, hs, e1, e2, e3⟩ := bwd _ he _ _ hkf hp hrd
      rw [← e1]
      exact .direct hs (e2 ▸ hp) hr hkf hrk e3
    | step _ hkf he hp hrd ih =>
      obtain ⟨s, hs, e1, e2, e3⟩ := bwd _ he _ _ hkf hp hrd
      rw [← e1]
      exact .step ih hkf hs (e2 ▸ hp) e3

/-- Every cell of a span whose formula reads what changed, directly or through cells of spans, is among the cells that
the engine marks, whatever the limit on the number of rounds. -/
theorem stale_marked (hk : SpansOk env spans) {changed : List Region} (hch : ∀ r ∈ changed, r.Ok) (limit : Nat) {c : P}
    {p : Key} (hp : p.Fits) (h : Stale env spans changed c p) :
    ∃ d rr, (c, d) ∈ Closure.marks (spans.map Span.id)
      (Closure.closure (consumerQuery (readEntries env spans)) (resultOf spans) limit changed) ∧
      resultOf spans c = some rr ∧ d.Has rr p := by
  have hc : c ∈ spans.map Span.id := by
    cases h with
    | direct hs _ _ _ _ _ => exact List.mem_map.2 ⟨_, hs, rfl⟩
    | step _ _ hs _ _ => exact List.mem_map.2 ⟨_, hs, rfl⟩
  exact Closure.marks_complete (entries_sound hk) hch limit _ hc hp ((stale_iff hk changed c p).1 h)

/-- When no formula refers to whole columns, and the closure ended within its limit, no other cell is marked. -/
theorem marked_exact (hk : SpansOk env spans) {changed : List Region} (hch : ∀ r ∈ changed, r.Ok)
    (hcols : ∀ s ∈ spans, ∀ r ∈ s.formula.refs, ¬ r.WholeCols)
    (hmax : ∀ s ∈ spans, ∀ p : Key, s.result.Has p → p.row < u32Max ∧ p.col < u32Max) {limit : Nat}
    {out : Closure.St P}
    (hout : Closure.closure (consumerQuery (readEntries env spans)) (resultOf spans) limit changed = some out) (c : P)
    (p : Key) (hp : p.Fits) :
    Closure.DirtyAt (resultOf spans) out.dirty c p ↔ Stale env spans changed c p := by
  rw [stale_iff hk]
  refine Closure.closure_exact (entries_sound hk) hch ?_ ?_ hout c p hp
  · intro e he
    obtain ⟨s, hs, ds, h, d, hd, rfl⟩ := (mem_readEntries hk).1 he
    obtain ⟨h1, h2⟩ := (Span.deps_spec (hk.names _) (hk.result s hs) (hk.written s hs) h).2.1 d hd
    dsimp only
    cases hr : d.rule with
    | cell a b => exact Or.inl ⟨a, b, rfl⟩
    | range a b c d => exact Or.inr ⟨a, b, c, d, rfl⟩
    | wholeCols a b =>
      obtain ⟨r, hr', hw⟩ := h2 a b hr
      exact absurd hw (hcols s hs r hr')
    | wholeResult => exact absurd hr h1
  · intro e he
    obtain ⟨s, hs, ds, h, d, hd, rfl⟩ := (mem_readEntries hk).1 he
    exact hmax s hs

end

/-- A sheet with a price, a quantity times the price of the row, and a running total of it: `C1 = A1*$B$1` and
`D1 = SUM($C$1:C1)`, both for ten rows. -/
def exSpans : List (Span Nat) :=
  [⟨1, ⟨0, 0, 2⟩, ⟨0, .span 0 9, .point 2⟩, .binary "*" (.ref (.cell none 1 1 false false)) (.ref (.cell none 1 2 true true))⟩,
   ⟨2, ⟨0, 0, 3⟩, ⟨0, .span 0 9, .point 3⟩,
    .func "SUM" [.ref (.range none (some 1) (some 3) (some 1) (some 3) true true false false)]⟩]

def exEnv : Env := ⟨fun _ => none, fun _ => none, fun n _ => n = "SUM", fun _ _ _ => .value⟩

theorem exSpans_ok : SpansOk (fun _ => exEnv) exSpans := by
  refine ⟨fun _ _ => trivial, by decide, ?_, ?_, ?_⟩
  · intro s hs
    simp only [exSpans, List.mem_cons, List.not_mem_nil, or_false] at hs
    rcases hs with rfl | rfl <;> simp [Region.Ok, AxisRange.Ok, u32Max]
  · intro s hs
    simp only [exSpans, List.mem_cons, List.not_mem_nil, or_false] at hs
    rcases hs with rfl | rfl <;> simp [Expr.refs, Expr.refsList, Ref.Written, u32Max]
  · intro s hs
    simp only [exSpans, List.mem_cons, List.not_mem_nil, or_false] at hs
    rcases hs with rfl | rfl
    · exact ⟨[⟨⟨0, .span 0 9, .point 0⟩, .cell (.rel 0) (.rel (-2))⟩, ⟨⟨0, .point 0, .point 1⟩, .cell (.abs 0) (.abs 1)⟩],
        by decide +kernel⟩
    · exact ⟨[⟨⟨0, .span 0 9, .point 2⟩, .range (.abs 0) (.rel 0) (.abs 2) (.rel (-1))⟩], by decide +kernel⟩

/-- The quantity of row 7 changes: its product and the totals from there on are marked.  The price changes: everything
is. -/
example : ((Closure.closure (consumerQuery (readEntries (fun _ => exEnv) exSpans)) (resultOf exSpans) 100
      [⟨0, .point 6, .point 0⟩]).map Closure.St.dirty =
    some [(2, .regions [⟨0, .span 6 9, .point 3⟩]), (1, .cells [⟨0, 6, 2⟩])]) ∧
    (Closure.closure (consumerQuery (readEntries (fun _ => exEnv) exSpans)) (resultOf exSpans) 100
      [⟨0, .point 0, .point 1⟩]).map Closure.St.dirty =
    some [(2, .regions [⟨0, .span 0 9, .point 3⟩]), (1, .regions [⟨0, .span 0 9, .point 2⟩])] := by
  decide +kernel

end Verif.Plane

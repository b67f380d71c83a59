/-
Spans from their making through any number of insertions and deletions (property C61).
-/
import Verif.Plane.ShiftSplit

namespace Verif.Plane.Edit

open Verif.Plane

/-! ### A span that has just been made -/

theorem visitRef_rule {env : Env} {anchor : Key} {ps out : List (Nat × Rule)} {ctx : Ctx} {inArg : Bool} {r : Ref}
    (h : visitRef env anchor.sheet (anchor.row + 1) (anchor.col + 1) ps ctx inArg r = some out) :
    ∃ x, ruleOf env anchor r = some x ∧ ∀ y, y ∈ out ↔ y ∈ ps ∨ y = x := by
  cases r with
  | other => cases h
  | name n =>
    simp only [visitRef, visitName] at h
    simp only [ruleOf]
    cases hn : env.name n with
    | none => rw [hn] at h; cases h
    | some t =>
      rw [hn] at h
      cases t with
      | other => cases h
      | cell sheet row col =>
        obtain rfl := Option.some.inj h
        exact ⟨_, rfl, mem_pushProjection _ _⟩
      | range sheet row col sheet' row' col' =>
        dsimp only at h ⊢
        split at h
        · cases h
        · split at h
          · cases h
          · next hs =>
            obtain rfl := Option.some.inj h
            rw [if_pos (by simpa using hs)]
            exact ⟨_, rfl, mem_pushProjection _ _⟩
  | cell sheet row col ra ca =>
    simp only [visitRef] at h
    simp only [ruleOf, summaryRule]
    cases hs : sheetOf env anchor.sheet sheet with
    | none => rw [hs] at h; cases h
    | some s =>
      rw [hs] at h
      obtain rfl := Option.some.inj h
      exact ⟨_, rfl, mem_pushProjection _ _⟩
  | range sheet sr sc er ec sra sca era eca =>
    simp only [visitRef] at h
    simp only [ruleOf]
    cases hs : sheetOf env anchor.sheet sheet with
    | none => rw [hs] at h; cases h
    | some s =>
      rw [hs] at h
      dsimp only at h
      split at h
      · cases h
      · split at h
        · split at h
          · cases h
          · obtain rfl := Option.some.inj h
            simp only [summaryRule, hs]
            exact ⟨_, rfl, mem_pushProjection _ _⟩
        · obtain rfl := Option.some.inj h
          simp only [summaryRule, hs]
          exact ⟨_, rfl, mem_pushProjection _ _⟩
        · cases h

/-- The references have the rules `ys`, and these are what has been added to the projections. -/
def Ruled (env : Env) (anchor : Key) (refs : List Ref) (ps out : List (Nat × Rule)) : Prop :=
  ∃ ys, List.Forall₂ (fun r x => ruleOf env anchor r = some x) refs ys ∧ ∀ z, z ∈ out ↔ z ∈ ps ∨ z ∈ ys

theorem Ruled.refl (env : Env) (anchor : Key) (ps : List (Nat × Rule)) : Ruled env anchor [] ps ps :=
  ⟨[], .nil, fun z => by simp⟩

theorem forall₂_append {α β : Type} {R : α → β → Prop} {a b : List α} {x y : List β} (h1 : List.Forall₂ R a x)
    (h2 : List.Forall₂ R b y) : List.Forall₂ R (a ++ b) (x ++ y) := by
  induction h1 with
  | nil => exact h2
  | cons h _ ih => exact .cons h ih

theorem Ruled.trans {env : Env} {anchor : Key} {a b : List Ref} {ps mid out : List (Nat × Rule)}
    (h1 : Ruled env anchor a ps mid) (h2 : Ruled env anchor b mid out) : Ruled env anchor (a ++ b) ps out := by
  obtain ⟨ys, a1, a2⟩ := h1
  obtain ⟨zs, b1, b2⟩ := h2
  refine ⟨ys ++ zs, forall₂_append a1 b1, fun z => ?_⟩
  rw [b2, a2, List.mem_append]
  tauto

mutual

theorem visit_ruled {env : Env} {anchor : Key} : ∀ (e : Expr) {ps out : List (Nat × Rule)} {ctx : Ctx} {inArg : Bool},
    visit env anchor.sheet (anchor.row + 1) (anchor.col + 1) ps ctx inArg e = some out → Ruled env anchor e.refs ps out
  | .lit, ps, out, ctx, inArg, h => by
    simp only [visit] at h
    split at h
    · obtain rfl := Option.some.inj h; exact Ruled.refl _ _ _
    · cases h
  | .omitted, ps, out, ctx, inArg, h => by
    simp only [visit] at h
    split at h
    · obtain rfl := Option.some.inj h; exact Ruled.refl _ _ _
    · cases h
  | .ref r, ps, out, ctx, inArg, h => by
    simp only [visit] at h
    obtain ⟨x, hx, hy⟩ := visitRef_rule h
    simp only [Expr.refs]
    exact ⟨[x], .cons hx .nil, fun z => by rw [hy, List.mem_singleton]⟩
  | .unary op e, ps, out, ctx, inArg, h => by
    simp only [visit] at h
    split at h
    · simp only [Expr.refs]
      exact visit_ruled e h
    · cases h
  | .binary op l r, ps, out, ctx, inArg, h => by
    simp only [visit] at h
    simp only [Expr.refs]
    split at h
    · cases h1 : visit env anchor.sheet (anchor.row + 1) (anchor.col + 1) ps ctx inArg l with
      | none => rw [h1] at h; cases h
      | some mid =>
        rw [h1] at h
        exact (visit_ruled l h1).trans (visit_ruled r h)
    · cases h
  | .func name args, ps, out, ctx, inArg, h => by
    simp only [visit] at h
    simp only [Expr.refs]
    split at h
    · cases h1 : visitArgs env anchor.sheet (anchor.row + 1) (anchor.col + 1) ps name args.length 0 args with
      | none => rw [h1] at h; cases h
      | some mid =>
        rw [h1] at h
        dsimp only at h
        split at h
        · obtain rfl := Option.some.inj h
          exact visitArgs_ruled args h1
        · cases h
    · cases h
  | .call, _, _, _, _, h => by simp [visit] at h
  | .array, _, _, _, _, h => by simp [visit] at h

theorem visitArgs_ruled {env : Env} {anchor : Key} : ∀ (es : List Expr) {ps out : List (Nat × Rule)} {fname : String}
    {arity i : Nat}, visitArgs env anchor.sheet (anchor.row + 1) (anchor.col + 1) ps fname arity i es = some out →
    Ruled env anchor (Expr.refsList es) ps out
  | [], ps, out, fname, arity, i, h => by
    simp only [visitArgs] at h
    obtain rfl := Option.some.inj h
    exact Ruled.refl _ _ _
  | e :: es, ps, out, fname, arity, i, h => by
    simp only [visitArgs] at h
    simp only [Expr.refsList]
    split at h
    · cases h
    · next mid h1 => exact (visit_ruled e h1).trans (visitArgs_ruled es h)

end

/-- A span as it is made from formulas of which the one at `anchor` is `formula` (placement.rs 1165-1250): template, formula
shown and formula evaluated are that one. -/
def fresh {P : Type} (s : Plane.Span P) (deps : List Dependency) (single : Bool) : Span :=
  ⟨s.result, ⟨s.anchor, s.formula.refs⟩, ⟨s.anchor, s.formula.refs⟩, ⟨s.anchor, s.formula.refs⟩, deps, single⟩

/-- **A span that has just been made is in order**, and its template is its own. -/
theorem fresh_good {P : Type} {env : Env} {s : Plane.Span P} {deps : List Dependency} (single : Bool) (hres : s.result.Ok)
    (hhome : s.anchor.sheet = s.result.sheet) (hw : ∀ r ∈ s.formula.refs, r.Written)
    (ho : ∀ r ∈ s.formula.refs, RefOrdered r) (h : s.deps env = some deps) :
    Good env (fresh s deps single) ∧ (fresh s deps single).Own := by
  unfold Plane.Span.deps at h
  cases hp : readProjections env s.anchor s.formula with
  | none => rw [hp] at h; cases h
  | some ps =>
    rw [hp] at h
    dsimp only at h
    obtain ⟨ys, h1, h2⟩ := visit_ruled s.formula hp
    have hf : FrameOk env s.result.sheet ⟨s.anchor, s.formula.refs⟩ ys := ⟨hhome, hw, ho, h1⟩
    refine ⟨⟨ys, hres, hf, hf, hf, ?_⟩, rfl⟩
    unfold prepareDomain at h
    cases hr : readSummary s.result [] ps with
    | none => rw [hr] at h; cases h
    | some ds =>
      rw [hr] at h
      dsimp only at h
      split at h
      · cases h
      · obtain rfl := Option.some.inj h
        exact (summary_of_readSummary hr).congr fun x => by rw [h2]; simp

/-! ### Many operations -/

/-- Where a cell is after several operations. -/
def movePath : List Op → Key → Option Key
  | [], k => some k
  | op :: ops, k => (op.move k).bind (movePath ops)

/-- What is left of spans after an operation, spans that are demoted being spans no more; `none` if the operation fails. -/
def step (env : Env) (op : Op) : List Span → Option (List Span)
  | [] => some []
  | s :: ss =>
    match apply env op s with
    | .failed => none
    | .unchanged => (step env op ss).map (s :: ·)
    | .moved s' => (step env op ss).map (s' :: ·)
    | .halves u l => (step env op ss).map fun r => u :: l :: r
    | .removed => step env op ss
    | .demoted => step env op ss

/-- Operations carried out one after the other on spans.  No span is compacted. -/
inductive Run : Env → List Span → List Op → Env → List Span → Prop
  | nil (env : Env) (spans : List Span) : Run env spans [] env spans
  | cons {env env1 env' : Env} {spans spans1 final : List Span} {op : Op} {ops : List Op} (fits : op.Fits)
      (moves : EnvMoves op env env1) (grid : ∀ s ∈ spans, Grid op s)
      (compact : ∀ s ∈ spans, classifySpan op s.result s.deps = .compact → apply env op s = .demoted)
      (done : step env op spans = some spans1) (rest : Run env1 spans1 ops env' final) : Run env spans (op :: ops) env' final

/-- All three frames of a span follow; `mv` says where cells go. -/
structure FramesTrackBy (mv : Key → Option Key) (env env' : Env) (s s' : Span) (p p' : Key) : Prop where
  template : s.template.TracksBy mv env env' s'.template p p'
  shown : s.shown.TracksBy mv env env' s'.shown p p'
  evaluated : s.evaluated.TracksBy mv env env' s'.evaluated p p'

theorem Tracks.comp {m1 m2 : Key → Option Key} {A B C : Key → Prop} (h1 : Tracks m1 A B) (h2 : Tracks m2 B C) :
    Tracks (fun k => (m1 k).bind m2) A C := by
  refine ⟨fun k k' h => ?_, fun k hk => ?_⟩
  · obtain ⟨j, e1, e2⟩ := Option.bind_eq_some_iff.1 h
    rw [h2.same j k' e2, h1.same k j e1]
  · obtain ⟨j, e1⟩ := h1.kept k hk
    obtain ⟨k', e2⟩ := h2.kept j ((h1.same k j e1).2 hk)
    exact ⟨k', Option.bind_eq_some_iff.2 ⟨j, e1, e2⟩⟩

theorem NoNew.comp {m1 m2 : Key → Option Key} {B C : Key → Prop} (h1 : NoNew m1 B) (h2 : NoNew m2 C)
    (h : Tracks m2 B C) : NoNew (fun k => (m1 k).bind m2) C := by
  intro k' hk'
  obtain ⟨j, e2⟩ := h2 k' hk'
  obtain ⟨k, e1⟩ := h1 j ((h.same j k' e2).1 hk')
  exact ⟨k, Option.bind_eq_some_iff.2 ⟨j, e1, e2⟩⟩

theorem Frame.TracksBy.comp {m1 m2 : Key → Option Key} {env env1 env' : Env} {f f1 f' : Frame} {p p1 p' : Key}
    (h1 : f.TracksBy m1 env env1 f1 p p1) (h2 : f1.TracksBy m2 env1 env' f' p1 p') :
    f.TracksBy (fun k => (m1 k).bind m2) env env' f' p p' := by
  unfold Frame.TracksBy at *
  generalize f.refs = a at *
  generalize f1.refs = b at *
  generalize f'.refs = c at *
  induction h1 generalizing c with
  | nil => cases h2; exact .nil
  | cons e _ ih =>
    cases h2 with
    | cons e2 h2 =>
      refine .cons ⟨e.1.comp e2.1, fun hno => ?_, e2.2.2.trans e.2.2⟩ (ih _ h2)
      exact (e.2.1 hno).comp (e2.2.1 fun hw => hno (e.2.2.1 hw)) e2.1

theorem Frame.TracksBy.refl {env : Env} (f : Frame) (p : Key) : f.TracksBy (movePath []) env env f p p := by
  refine List.forall₂_same.2 fun r _ => ⟨⟨fun k k' h => ?_, fun k _ => ⟨k, rfl⟩⟩, fun _ k' _ => ⟨k', rfl⟩, Iff.rfl⟩
  cases h
  exact Iff.rfl

theorem moved_own {env : Env} {op : Op} {s s' : Span} (h : apply env op s = .moved s') : s'.Own := by
  unfold apply at h
  split at h
  · cases h
  · cases h
  · cases h
  · unfold applyCompact at h
    split at h
    · split at h
      · cases h; rfl
      · cases h
    · cases h
  · rcases applySplit_out op s with e | ⟨u, l, e⟩ <;> rw [e] at h <;> cases h
  · unfold applyShift at h
    split at h
    · cases h
    · split at h
      · cases h
      · split at h
        · unfold rewrite at h
          split at h
          · split at h
            · cases h
            · split at h
              · cases h
              · split at h
                · cases h
                · split at h
                  · cases h
                  · cases h; rfl
          · cases h
        · split at h
          · cases h
          · cases h; rfl

theorem step_tracks {op : Op} {env env' : Env} (hop : op.Fits) (henv : env.Ok) (he : EnvMoves op env env') :
    ∀ {spans out : List Span}, (∀ s ∈ spans, Good env s ∧ s.Own) → (∀ s ∈ spans, Grid op s) →
    (∀ s ∈ spans, classifySpan op s.result s.deps = .compact → apply env op s = .demoted) →
    step env op spans = some out → ∀ s' ∈ out, (Good env' s' ∧ s'.Own) ∧ ∀ p' : Key, s'.result.Has p' →
      ∃ s ∈ spans, ∃ p, s.result.Has p ∧ op.move p = some p' ∧ FramesTrackBy op.move env env' s s' p p' := by
  intro spans
  induction spans with
  | nil => intro out _ _ _ h; obtain rfl := Option.some.inj h; intro s' hs'; cases hs'
  | cons s ss ih =>
    intro out hg hgrid hnc h
    have rest : ∀ r, step env op ss = some r → ∀ s' ∈ r, (Good env' s' ∧ s'.Own) ∧ ∀ p' : Key, s'.result.Has p' →
        ∃ x ∈ s :: ss, ∃ p, x.result.Has p ∧ op.move p = some p' ∧ FramesTrackBy op.move env env' x s' p p' := by
      intro r hr s' hs'
      obtain ⟨h1, h2⟩ := ih (fun x hx => hg x (List.mem_cons_of_mem _ hx)) (fun x hx => hgrid x (List.mem_cons_of_mem _ hx))
        (fun x hx => hnc x (List.mem_cons_of_mem _ hx)) hr s' hs'
      refine ⟨h1, fun p' hp' => ?_⟩
      obtain ⟨x, hx, h3⟩ := h2 p' hp'
      exact ⟨x, List.mem_cons_of_mem _ hx, h3⟩
    obtain ⟨g, own⟩ := hg s List.mem_cons_self
    have hgr := hgrid s List.mem_cons_self
    simp only [step] at h
    cases ha : apply env op s with
    | failed => rw [ha] at h; cases h
    | removed => rw [ha] at h; exact rest _ h
    | demoted => rw [ha] at h; exact rest _ h
    | unchanged =>
      rw [ha] at h
      obtain ⟨r, hr, rfl⟩ := Option.map_eq_some_iff.1 h
      intro s' hs'
      rcases List.mem_cons.1 hs' with rfl | hs'
      · obtain ⟨h1, h2⟩ := unchanged_tracks hop henv he g ha
        refine ⟨⟨h1, own⟩, fun p' hp' => ⟨s', List.mem_cons_self, p', hp', (h2 p' hp').1, ?_⟩⟩
        obtain ⟨-, t⟩ := h2 p' hp'
        exact ⟨t.template, t.shown, t.evaluated⟩
      · exact rest r hr s' hs'
    | moved s1 =>
      rw [ha] at h
      obtain ⟨r, hr, rfl⟩ := Option.map_eq_some_iff.1 h
      intro s' hs'
      rcases List.mem_cons.1 hs' with rfl | hs'
      · have hnc' : classifySpan op s.result s.deps ≠ .compact := by
          intro hc
          have := hnc s List.mem_cons_self hc
          rw [ha] at this
          cases this
        obtain ⟨h1, h2, h3⟩ := moved_tracks hop henv he g hgr hnc' ha
        refine ⟨⟨h1, moved_own ha⟩, fun p' hp' => ?_⟩
        obtain ⟨p, hp, hm⟩ := h3 p' hp'
        obtain ⟨p'', hm', -, t⟩ := h2 p hp
        rw [hm] at hm'
        cases hm'
        exact ⟨s, List.mem_cons_self, p, hp, hm, t.template, t.shown, t.evaluated⟩
      · exact rest r hr s' hs'
    | halves u l =>
      rw [ha] at h
      obtain ⟨r, hr, rfl⟩ := Option.map_eq_some_iff.1 h
      obtain ⟨g1, g2, o1, o2, h1, h2⟩ := halves_cells hop henv he g hgr own ha
      intro s' hs'
      rcases List.mem_cons.1 hs' with rfl | hs'
      · refine ⟨⟨g1, o1⟩, fun p' hp' => ?_⟩
        obtain ⟨p, hp, hm, t⟩ := h1 p' hp'
        exact ⟨s, List.mem_cons_self, p, hp, hm, t.template, t.shown, t.evaluated⟩
      · rcases List.mem_cons.1 hs' with rfl | hs'
        · refine ⟨⟨g2, o2⟩, fun p' hp' => ?_⟩
          obtain ⟨p, hp, hm, t⟩ := h2 p' hp'
          exact ⟨s, List.mem_cons_self, p, hp, hm, t.template, t.shown, t.evaluated⟩
        · exact rest r hr s' hs'

/-- **Any number of insertions and deletions.**  Spans in order stay in order; every cell of a span at the end was a cell
of a span at the beginning, it is where the operations have put it, and its formula refers, reference by reference, to the
cells that it referred to, where the operations have put them.  Partial: no span is compacted. -/
theorem run_tracks_partial {env env' : Env} {spans final : List Span} {ops : List Op} (h : Run env spans ops env' final) :
    env.Ok → (∀ s ∈ spans, Good env s ∧ s.Own) → ∀ s' ∈ final, (Good env' s' ∧ s'.Own) ∧ ∀ p' : Key, s'.result.Has p' →
      ∃ s ∈ spans, ∃ p, s.result.Has p ∧ movePath ops p = some p' ∧ FramesTrackBy (movePath ops) env env' s s' p p' := by
  induction h with
  | nil env spans =>
    intro _ hg s' hs'
    exact ⟨hg s' hs', fun p' hp' => ⟨s', hs', p', hp', rfl, .refl _ _, .refl _ _, .refl _ _⟩⟩
  | cons fits moves grid compact done rest ih =>
    intro henv hg s' hs'
    have hst := step_tracks fits henv moves hg grid compact done
    obtain ⟨h1, h2⟩ := ih moves.ok (fun s hs => (hst s hs).1) s' hs'
    refine ⟨h1, fun p' hp' => ?_⟩
    obtain ⟨s1, hs1, p1, hp1, m1, t1⟩ := h2 p' hp'
    obtain ⟨s, hs, p, hp, m, t⟩ := (hst s1 hs1).2 p1 hp1
    refine ⟨s, hs, p, hp, ?_, t.template.comp t1.template, t.shown.comp t1.shown, t.evaluated.comp t1.evaluated⟩
    simp only [movePath, m, Option.bind_some]
    exact m1

end Verif.Plane.Edit

/-
Spans follow insertions and deletions (property C61).
-/
import Verif.Plane.ShiftRewrite

namespace Verif.Plane.Edit

open Verif.Plane

/-! ### What is claimed -/

/-- The formula of the frame, as the cell `p` has it, after the operation is the formula of the other frame, as the cell
`p'` has it: reference by reference, every cell that is still there is referred to exactly when it was, no cell that was
referred to is gone; and, for references other than to whole columns, no inserted cell is referred to.  `mv` says where
cells go. -/
def Frame.TracksBy (mv : Key → Option Key) (env env' : Env) (f f' : Frame) (p p' : Key) : Prop :=
  List.Forall₂ (fun r r' => Edit.Tracks mv (r.Denotes env f.origin p) (r'.Denotes env' f'.origin p') ∧
    (¬ r.WholeCols → NoNew mv (r'.Denotes env' f'.origin p')) ∧ (r'.WholeCols ↔ r.WholeCols)) f.refs f'.refs

def Frame.Tracks (op : Op) (env env' : Env) (f f' : Frame) (p p' : Key) : Prop := f.TracksBy op.move env env' f' p p'

/-- The target of a name is not touched by the operation. -/
def Untouched (op : Op) : Target → Prop
  | .cell sheet row col => sheet ≠ op.sheet ∨ (if op.rows then row else col) < op.at_
  | .range sheet row col _ row' col' => sheet ≠ op.sheet ∨
      ((if op.rows then row else col) < op.at_ ∧ (if op.rows then row' else col') < op.at_)
  | .other => True

/-- What the operation does to sheets and names: sheets stay, and so do names whose target is not touched. -/
structure EnvMoves (op : Op) (env env' : Env) : Prop where
  sheets : env'.sheetId = env.sheetId
  names : ∀ n t, env.name n = some t → Untouched op t → env'.name n = some t
  ok : env'.Ok

/-- A frame of a span: it was written on the sheet of the span, its references are well formed, and their rules are `xs`. -/
structure FrameOk (env : Env) (sheet : Nat) (f : Frame) (xs : List (Nat × Rule)) : Prop where
  home : f.origin.sheet = sheet
  written : ∀ r ∈ f.refs, r.Written
  ordered : ∀ r ∈ f.refs, RefOrdered r
  rules : List.Forall₂ (fun r x => ruleOf env f.origin r = some x) f.refs xs

/-- A span that is in order: its three frames have the same rules, and its dependencies are those of the rules. -/
structure GoodWith (env : Env) (s : Span) (xs : List (Nat × Rule)) : Prop where
  ok : s.result.Ok
  template : FrameOk env s.result.sheet s.template xs
  shown : FrameOk env s.result.sheet s.shown xs
  evaluated : FrameOk env s.result.sheet s.evaluated xs
  summary : Summary s.result xs s.deps

def Good (env : Env) (s : Span) : Prop := ∃ xs, GoodWith env s xs

/-- Coordinates of references and read regions stay within `u32`. -/
structure Grid (op : Op) (s : Span) : Prop where
  deps : Room op s.deps
  refs : ∀ r ∈ s.template.refs, RefRoom op.count r

/-- All three frames of a span follow. -/
structure FramesTrack (op : Op) (env env' : Env) (s s' : Span) (p p' : Key) : Prop where
  template : s.template.Tracks op env env' s'.template p p'
  shown : s.shown.Tracks op env env' s'.shown p p'
  evaluated : s.evaluated.Tracks op env env' s'.evaluated p p'

/-! ### Frames and rules -/

theorem rulesOk_of_frame {env : Env} (henv : env.Ok) {sheet : Nat} {f : Frame} {xs : List (Nat × Rule)}
    (h : FrameOk env sheet f xs) : RulesOk xs := by
  intro x hx
  obtain ⟨r, hr, hrule⟩ := forall₂_right h.rules x hx
  have := (ruleOf_spec henv (h.written r hr) hrule).1
  exact ⟨this.1, this.2.1⟩

theorem forall₂_chain {α β γ δ : Type} {A : α → β → Prop} {B : β → γ → Prop} {C : δ → γ → Prop} {D : α → δ → Prop}
    {l : List α} {xs : List β} {ys : List γ} {l' : List δ} (h1 : List.Forall₂ A l xs) (h2 : List.Forall₂ B xs ys)
    (h3 : List.Forall₂ C l' ys) (h : ∀ a ∈ l, ∀ x ∈ xs, ∀ y ∈ ys, ∀ d ∈ l', A a x → B x y → C d y → D a d) :
    List.Forall₂ D l l' := by
  induction h1 generalizing ys l' with
  | nil => cases h2; cases h3; exact .nil
  | cons ha _ ih =>
    cases h2 with
    | cons hb h2 =>
      cases h3 with
      | cons hc h3 =>
        refine .cons (h _ List.mem_cons_self _ List.mem_cons_self _ List.mem_cons_self _ List.mem_cons_self ha hb hc) ?_
        exact ih h2 h3 fun a ha x hx y hy d hd => h a (List.mem_cons_of_mem _ ha) x (List.mem_cons_of_mem _ hx) y
          (List.mem_cons_of_mem _ hy) d (List.mem_cons_of_mem _ hd)

theorem frame_tracks {op : Op} {env env' : Env} (henv : env.Ok) (henv' : env'.Ok) {sheet : Nat} {f f' : Frame}
    {xs xs' : List (Nat × Rule)} {p p' : Key} (h : FrameOk env sheet f xs) (h' : FrameOk env' sheet f' xs')
    (hx : List.Forall₂ (fun x x' => RuleTracks op x x' p p') xs xs') : f.Tracks op env env' f' p p' := by
  refine forall₂_chain h.rules hx h'.rules fun r hr x _ x' _ r' hr' e1 e2 e3 => ?_
  obtain ⟨⟨-, -, hwc, hd⟩, hcw⟩ := ruleOf_spec henv (h.written r hr) e1
  obtain ⟨⟨-, -, hwc', hd'⟩, hcw'⟩ := ruleOf_spec henv' (h'.written r' hr') e3
  refine ⟨⟨fun k k' hk => ?_, fun k hk => ?_⟩, fun hno k' hk' => ?_, fun hw => ?_, fun hw => ?_⟩
  · rw [hd' p' k', hd p k]; exact e2.tracks.same k k' hk
  · exact e2.tracks.kept k ((hd p k).1 hk)
  · exact e2.noNew (fun a b e => hno (hwc a b e)) k' ((hd' p' k').1 hk')
  · obtain ⟨a, b, e⟩ := e2.kind.1 (hcw' hw)
    exact hwc a b e
  · obtain ⟨a, b, e⟩ := e2.kind.2 (hcw hw)
    exact hwc' a b e

theorem sheetOf_env {op : Op} {env env' : Env} (h : EnvMoves op env env') (home : Nat) (s : Option String) :
    sheetOf env' home s = sheetOf env home s := by
  cases s <;> simp [sheetOf, h.sheets]

theorem summaryRule_env {op : Op} {env env' : Env} (h : EnvMoves op env env') (o : Key) (r : Ref) :
    summaryRule env' o r = summaryRule env o r := by
  unfold summaryRule
  split <;> simp only [sheetOf_env h]

/-- The absolute bounds of the rule are not touched. -/
def AbsStay (op : Op) (x : Nat × Rule) : Prop := ∀ i, AxisProj.abs i ∈ op.bounds x.2 → x.1 ≠ op.sheet ∨ i < op.at_

theorem ruleOf_env {op : Op} {env env' : Env} (h : EnvMoves op env env') {o : Key} {r : Ref} {x : Nat × Rule}
    (hr : ruleOf env o r = some x) (ha : AbsStay op x) : ruleOf env' o r = some x := by
  cases r with
  | name n =>
    simp only [ruleOf] at hr ⊢
    cases hn : env.name n with
    | none => rw [hn] at hr; cases hr
    | some t =>
      rw [hn] at hr
      have : Untouched op t := by
        cases t with
        | other => trivial
        | cell sheet row col =>
          obtain rfl := Option.some.inj hr
          unfold Untouched
          cases hrw : op.rows
          · exact ha col (by simp [Op.bounds, hrw])
          · exact ha row (by simp [Op.bounds, hrw])
        | range sheet row col sheet' row' col' =>
          dsimp only at hr
          split at hr
          · obtain rfl := Option.some.inj hr
            unfold Untouched
            cases hrw : op.rows
            · have h1 := ha (min col col') (by simp [Op.bounds, hrw])
              have h2 := ha (max col col') (by simp [Op.bounds, hrw])
              simp only [Bool.false_eq_true, if_false]
              dsimp only at h1 h2
              by_cases hs : sheet = op.sheet
              · right
                simp only [hs, ne_eq, not_true_eq_false, false_or] at h1 h2
                omega
              · exact Or.inl hs
            · have h1 := ha (min row row') (by simp [Op.bounds, hrw])
              have h2 := ha (max row row') (by simp [Op.bounds, hrw])
              simp only [if_true]
              dsimp only at h1 h2
              by_cases hs : sheet = op.sheet
              · right
                simp only [hs, ne_eq, not_true_eq_false, false_or] at h1 h2
                omega
              · exact Or.inl hs
          · cases hr
      rw [h.names n t hn this]
      exact hr
  | _ => simp only [ruleOf, summaryRule_env h] at hr ⊢; exact hr

theorem frame_env {op : Op} {env env' : Env} (h : EnvMoves op env env') {sheet : Nat} {f : Frame} {xs : List (Nat × Rule)}
    (hf : FrameOk env sheet f xs) (ha : ∀ x ∈ xs, AbsStay op x) : FrameOk env' sheet f xs := by
  refine ⟨hf.home, hf.written, hf.ordered, ?_⟩
  have := hf.rules
  clear hf
  revert ha
  generalize f.refs = refs at this
  induction this with
  | nil => intro _; exact .nil
  | cons h1 _ ih =>
    intro ha
    exact .cons (ruleOf_env h h1 (ha _ List.mem_cons_self)) (ih fun x hx => ha x (List.mem_cons_of_mem _ hx))

/-- The rule of a reference seen from another origin. -/
theorem ruleOf_move {env : Env} {o o' : Key} {dr dc : Int} (hs : o'.sheet = o.sheet) (hr : (o'.row : Int) = o.row + dr)
    (hc : (o'.col : Int) = o.col + dc) {r : Ref} {x : Nat × Rule} (h : ruleOf env o r = some x) :
    ruleOf env o' r = some (x.1, addRule x.2 (-dr) (-dc)) := by
  have proj : ∀ (i : Nat) (abs : Bool) (a a' : Nat) (d : Int), (a' : Int) = a + d →
      axisProjection i abs (a' + 1) = addProj (axisProjection i abs (a + 1)) (-d) := by
    intro i abs a a' d hd
    cases abs
    · simp only [axisProjection, Bool.false_eq_true, if_false, addProj, AxisProj.rel.injEq]; omega
    · simp [axisProjection, addProj]
  cases r with
  | other => cases h
  | name n =>
    simp only [ruleOf] at h ⊢
    cases hn : env.name n with
    | none => rw [hn] at h; cases h
    | some t =>
      rw [hn] at h
      cases t with
      | other => cases h
      | cell sheet row col =>
        obtain rfl := Option.some.inj h
        rfl
      | range sheet row col sheet' row' col' =>
        dsimp only at h ⊢
        split at h
        · next e =>
          obtain rfl := Option.some.inj h
          rw [if_pos e]
          rfl
        · cases h
  | cell sheet row col ra ca =>
    simp only [ruleOf, summaryRule, hs] at h ⊢
    cases hsh : sheetOf env o.sheet sheet with
    | none => rw [hsh] at h; cases h
    | some s =>
      rw [hsh] at h
      obtain rfl := Option.some.inj h
      simp only [addRule, proj _ _ _ _ _ hr, proj _ _ _ _ _ hc]
  | range sheet sr sc er ec sra sca era eca =>
    simp only [ruleOf] at h ⊢
    unfold summaryRule at h
    split at h
    · next heq => cases heq
    · next heq =>
      cases heq
      simp only [summaryRule, hs]
      cases hsh : sheetOf env o.sheet sheet with
      | none => rw [hsh] at h; cases h
      | some s =>
        rw [hsh] at h
        obtain rfl := Option.some.inj h
        simp only [addRule, proj _ _ _ _ _ hc]
    · next heq =>
      cases heq
      simp only [summaryRule, hs]
      cases hsh : sheetOf env o.sheet sheet with
      | none => rw [hsh] at h; cases h
      | some s =>
        rw [hsh] at h
        obtain rfl := Option.some.inj h
        simp only [addRule, proj _ _ _ _ _ hr, proj _ _ _ _ _ hc]
    · cases h

theorem move_spec {f f' : Frame} {dr dc : Int} (h : f.move dr dc = some f') : f'.refs = f.refs ∧
    f'.origin.sheet = f.origin.sheet ∧ (f'.origin.row : Int) = f.origin.row + dr ∧
    (f'.origin.col : Int) = f.origin.col + dc := by
  unfold Frame.move at h
  cases h1 : checkedShift f.origin.row dr with
  | none => rw [h1] at h; cases h
  | some r =>
    cases h2 : checkedShift f.origin.col dc with
    | none => rw [h1, h2] at h; cases h
    | some c =>
      rw [h1, h2] at h
      cases h
      exact ⟨rfl, rfl, (checkedShift_spec h1).1, (checkedShift_spec h2).1⟩

theorem frame_move {env : Env} {sheet : Nat} {f f' : Frame} {xs : List (Nat × Rule)} {dr dc : Int}
    (hf : FrameOk env sheet f xs) (h : f.move dr dc = some f') :
    FrameOk env sheet f' (xs.map fun x => (x.1, addRule x.2 (-dr) (-dc))) := by
  obtain ⟨h1, h2, h3, h4⟩ := move_spec h
  refine ⟨by rw [h2, hf.home], by rw [h1]; exact hf.written, by rw [h1]; exact hf.ordered, ?_⟩
  rw [h1]
  have := hf.rules
  clear hf
  generalize f.refs = refs at this
  induction this with
  | nil => exact .nil
  | cons e _ ih => exact .cons (ruleOf_move h2 h3 h4 e) ih

theorem map_addRule_zero (xs : List (Nat × Rule)) : (xs.map fun x => (x.1, addRule x.2 (-0) (-0))) = xs := by
  simp only [Int.neg_zero, addRule_zero, List.map_id']

/-! ### Names -/

section
variable {op : Op} {result : Region} {xs : List (Nat × Rule)} {deps : List Dependency}

theorem region_nonempty {r : Region} (h : r.Ok) : ∃ p : Key, r.Has p := by
  have ax : ∀ a : AxisRange, a.Ok → ∃ x, a.Has x := by
    intro a ha
    cases a with
    | point p => exact ⟨p, rfl⟩
    | span s e => exact ⟨s, Nat.le_refl _, ha.1⟩
    | from_ s => exact ⟨s, Nat.le_refl _⟩
    | «to» e => exact ⟨e, Nat.le_refl _⟩
    | all => exact ⟨0, trivial⟩
  obtain ⟨x, hx⟩ := ax _ h.1
  obtain ⟨y, hy⟩ := ax _ h.2
  exact ⟨⟨r.sheet, x, y⟩, rfl, hx, hy⟩

theorem abs_stay (hop : op.Fits) (hres : result.Ok) (hsum : Summary result xs deps) (hxs : RulesOk xs)
    (hc : Clean op deps) (hno : ∀ d ∈ deps, op.classify d.read = .above → op.hasAbsolute d.rule = false) :
    ∀ x ∈ xs, AbsStay op x := by
  intro x hx i hi
  obtain ⟨p, hp⟩ := region_nonempty hres
  obtain ⟨d, hd, hdr, v, hv, hside⟩ := bound_side hop hres hsum hxs hc hx hp hi
  have : i = v := by simp only [AxisProj.at_] at hv; omega
  subst this
  rcases hside with ⟨s1, s2⟩ | ⟨s1, s2, s3⟩ | ⟨s1, s2, s3⟩
  · exact Or.inl s2
  · exact Or.inr s3
  · have := hno d hd s1
    rw [hdr] at this
    obtain ⟨o, ho⟩ := not_absolute this _ hi
    cases ho

end

/-! ### What can come out -/

theorem applyShift_out (env : Env) (op : Op) (s : Span) (a b : Bool) : applyShift env op s a b = .failed ∨
    applyShift env op s a b = .demoted ∨ ∃ s', applyShift env op s a b = .moved s' := by
  unfold applyShift
  split
  · exact Or.inl rfl
  · split
    · exact Or.inl rfl
    · split
      · unfold rewrite
        split
        · split
          · exact Or.inl rfl
          · split
            · exact Or.inr (Or.inl rfl)
            · split
              · exact Or.inr (Or.inl rfl)
              · split
                · exact Or.inr (Or.inl rfl)
                · exact Or.inr (Or.inr ⟨_, rfl⟩)
        · exact Or.inr (Or.inl rfl)
      · split
        · exact Or.inl rfl
        · exact Or.inr (Or.inr ⟨_, rfl⟩)

theorem applySplit_out (op : Op) (s : Span) : applySplit op s = .demoted ∨ ∃ u l, applySplit op s = .halves u l := by
  unfold applySplit
  split
  · exact Or.inl rfl
  · split
    · exact Or.inl rfl
    · split
      · split
        · exact Or.inl rfl
        · split
          · split
            · exact Or.inl rfl
            · exact Or.inr ⟨_, _, rfl⟩
          · exact Or.inl rfl
      · exact Or.inl rfl

theorem applyCompact_out (op : Op) (s : Span) : applyCompact op s = .demoted ∨ ∃ s', applyCompact op s = .moved s' := by
  unfold applyCompact
  split
  · split
    · exact Or.inr ⟨_, rfl⟩
    · exact Or.inl rfl
  · exact Or.inl rfl

/-! ### The span stays -/

section
variable {op : Op} {env env' : Env} {s s' : Span}

theorem noOp_core (hop : op.Fits) (henv : env.Ok) (he : EnvMoves op env env') {result : Region}
    {xs : List (Nat × Rule)} {deps : List Dependency} (hres : result.Ok) (hsum : Summary result xs deps)
    (h : classifySpan op result deps = .noOp) {f : Frame} {sheet : Nat} (hf : FrameOk env sheet f xs) :
    FrameOk env' sheet f xs ∧ ∀ p : Key, result.Has p → f.Tracks op env env' f p p := by
  have hxs := rulesOk_of_frame henv hf
  obtain ⟨h1, h2, h3⟩ := span_noOp hop h
  have hf' := frame_env he hf (abs_stay hop hres hsum hxs h1 fun d hd ha => absurd ha (h2 d hd))
  refine ⟨hf', fun p hp => frame_tracks henv he.ok hf hf' (List.forall₂_same.2 fun x hx => ?_)⟩
  exact tracks_of_follows hop hres hsum hxs h1 hx hp rfl (follows_noOp hop hres hsum hxs h hx hp)

/-- **A span that is left as it is.**  None of its cells moves, and the formulas follow. -/
theorem unchanged_tracks (hop : op.Fits) (henv : env.Ok) (he : EnvMoves op env env') (hg : Good env s)
    (h : apply env op s = .unchanged) : Good env' s ∧ ∀ p : Key, s.result.Has p → op.move p = some p ∧
      FramesTrack op env env' s s p p := by
  obtain ⟨xs, hg⟩ := hg
  have hplan : classifySpan op s.result s.deps = .noOp := by
    unfold apply at h
    cases hc : classifySpan op s.result s.deps with
    | noOp => rfl
    | shift a b =>
      rw [hc] at h
      dsimp only at h
      rcases applyShift_out env op s a b with e | e | ⟨s', e⟩ <;> rw [e] at h <;> cases h
    | split =>
      rw [hc] at h
      dsimp only at h
      rcases applySplit_out op s with e | ⟨u, l, e⟩ <;> rw [e] at h <;> cases h
    | compact =>
      rw [hc] at h
      dsimp only at h
      rcases applyCompact_out op s with e | ⟨s', e⟩ <;> rw [e] at h <;> cases h
    | demote => rw [hc] at h; cases h
    | remove => rw [hc] at h; cases h
  have ht := noOp_core hop henv he hg.ok hg.summary hplan hg.template
  have hsh := noOp_core hop henv he hg.ok hg.summary hplan hg.shown
  have hev := noOp_core hop henv he hg.ok hg.summary hplan hg.evaluated
  exact ⟨⟨xs, hg.ok, ht.1, hsh.1, hev.1, hg.summary⟩,
    fun p hp => ⟨(span_noOp hop hplan).2.2 p hp, ht.2 p hp, hsh.2 p hp, hev.2 p hp⟩⟩

/-! ### The span moves -/

/-- The cells of a shifted result are those of the result, moved. -/
theorem shift_cells (hop : op.Fits) {result result' : Region} (hres : result.Ok) (hab : op.classify result = .above)
    (hr : shiftDomain result op.rowDelta op.colDelta = some result') :
    (∀ p : Key, result.Has p → ∃ p', Moves op p p' ∧ result'.Has p') ∧
      ∀ p' : Key, result'.Has p' → ∃ p, result.Has p ∧ op.move p = some p' := by
  have hs := shiftDomain_spec hr hres
  refine ⟨fun p hp => ?_, fun p' hp' => ?_⟩
  · obtain ⟨p', hm⟩ := moves_of_above hop hab hp
    exact ⟨p', hm, (hs.has hres (move_sheet hm.move) hm.row hm.col).2 hp⟩
  · obtain ⟨lo, hi, lo', hi', a1, a2, a3, a4⟩ := hs.rows
    obtain ⟨mo, mi, mo', mi', b1, b2, b3, b4⟩ := hs.cols
    have q1 := boundedOf_spec a1 hres.1
    have q2 := boundedOf_spec a2 hs.ok.1
    have w1 := boundedOf_spec b1 hres.2
    have w2 := boundedOf_spec b2 hs.ok.2
    have r1 := (q2.2.2.2.2 _).1 hp'.2.1
    have r2 := (w2.2.2.2.2 _).1 hp'.2.2
    let p : Key := ⟨result.sheet, ((p'.row : Int) - op.rowDelta).toNat, ((p'.col : Int) - op.colDelta).toNat⟩
    have e1 : (p'.row : Int) = p.row + op.rowDelta := by simp only [p]; omega
    have e2 : (p'.col : Int) = p.col + op.colDelta := by simp only [p]; omega
    have hp : result.Has p := (hs.has hres (p := p) (p' := p') (by rw [hp'.1, hs.sheet]) e1 e2).1 hp'
    obtain ⟨p'', hm⟩ := moves_of_above hop hab hp
    refine ⟨p, hp, ?_⟩
    have : p'' = p' := by
      have s1 := move_sheet hm.move
      have s2 := hm.row
      have s3 := hm.col
      obtain ⟨x, y, z⟩ := p''
      obtain ⟨x', y', z'⟩ := p'
      simp only [Key.mk.injEq]
      dsimp only at *
      refine ⟨?_, by omega, by omega⟩
      rw [s1]
      exact hs.sheet.symm.trans hp'.1.symm
    rw [← this]
    exact hm.move

/-- The shift of a frame that keeps its formula. -/
theorem shift_core (hop : op.Fits) (henv : env.Ok) (he : EnvMoves op env env') {result result' : Region}
    {xs : List (Nat × Rule)} {deps deps' : List Dependency} (hres : result.Ok) (hsum : Summary result xs deps)
    (hroom : Room op deps) {om : Bool} (h : classifySpan op result deps = .shift om false)
    (hr : shiftDomain result op.rowDelta op.colDelta = some result')
    (hd : shiftDeps op (if om then op.rowDelta else 0) (if om then op.colDelta else 0) deps = some deps')
    (hxs : RulesOk xs) :
    ∃ xs', Summary result' xs' deps' ∧ ∀ {sheet : Nat} {f f' : Frame}, FrameOk env sheet f xs →
      f.move (if om then op.rowDelta else 0) (if om then op.colDelta else 0) = some f' →
      FrameOk env' sheet f' xs' ∧ ∀ p p' : Key, result.Has p → Moves op p p' → f.Tracks op env env' f' p p' := by
  obtain ⟨hab, rs, hplan⟩ := span_shift h
  have hc : Clean op deps := clean_of_plan (by rw [hplan]; simp)
  cases om with
  | true =>
    simp only [if_true] at hd ⊢
    refine ⟨_, summary_moving hop hres hsum hxs h hr hd, fun {sheet f f'} hf hm => ?_⟩
    have hf1 := frame_env he hf (abs_stay hop hres hsum hxs hc fun d hd ha => absurd ha (plan_moving hplan d hd))
    have hf' := frame_move hf1 hm
    refine ⟨hf', fun p p' hp hmv => frame_tracks henv he.ok hf hf' ?_⟩
    have : xs = xs.map id := by simp
    conv => lhs; rw [this]
    exact forall₂_map_same fun x hx => tracks_of_follows hop hres hsum hxs hc hx hp rfl
      (follows_moving hop hres hsum hxs h hx hp hmv)
  | false =>
    simp only [Bool.false_eq_true, if_false] at hd ⊢
    refine ⟨xs, summary_pinned hop hres hsum hxs hroom h hr hd, fun {sheet f f'} hf hm => ?_⟩
    have hf1 := frame_env he hf (abs_stay hop hres hsum hxs hc fun d hd => (plan_pinned hplan d hd).1)
    have hf' := frame_move hf1 hm
    rw [map_addRule_zero] at hf'
    refine ⟨hf', fun p p' hp hmv => frame_tracks henv he.ok hf hf' (List.forall₂_same.2 fun x hx => ?_)⟩
    exact tracks_of_follows hop hres hsum hxs hc hx hp rfl (follows_pinned hop hres hsum hxs h hx hp hmv)

/-- The rewritten formula. -/
theorem rewrite_core (hop : op.Fits) (henv : env.Ok) (he : EnvMoves op env env') {xs : List (Nat × Rule)}
    (hg : GoodWith env s xs) (hgrid : ∀ r ∈ s.template.refs, RefRoom op.count r) {result' : Region} {f : Frame}
    (hm : s.template.move op.rowDelta op.colDelta = some f) (hrs : result'.sheet = s.result.sheet)
    (h : rewrite env op s result' f = .moved s') (hok : result'.Ok) :
    s'.result = result' ∧ Good env' s' ∧ ∀ p p' : Key, s.result.Has p → Moves op p p' → FramesTrack op env env' s s' p p' := by
  obtain ⟨-, m2, m3, m4⟩ := move_spec hm
  have hxs := rulesOk_of_frame henv hg.template
  unfold rewrite at h
  split at h
  · next hfr =>
    have hfr' : op.frameSound ((if op.rows then s.template.origin.row else s.template.origin.col : Nat) : Int) s.deps = true := by
      exact hfr
    split at h
    · cases h
    · next refs hrefs =>
      split at h
      · cases h
      · split at h
        · cases h
        · next ps hps =>
          split at h
          · cases h
          · next deps hdeps =>
            cases h
            have hadj := mapM_forall₂ hrefs
            have hrul := mapM_forall₂ hps
            obtain ⟨p0, hp0⟩ := region_nonempty hg.ok
            have one : ∀ r ∈ s.template.refs, ∀ x ∈ xs, ∀ x' ∈ ps, ∀ r', ruleOf env s.template.origin r = some x →
                adjusted env s.result.sheet op r = some r' → summaryRule env f.origin r' = some x' → _ :=
              fun r hr x hx x' _ r' e1 e2 e3 => rewrite_ref hop hg.ok hg.summary hxs m2 m3 m4 hfr' hx
                (hg.template.written r hr) (hg.template.ordered r hr) (hgrid r hr) e1
                (by rw [hg.template.home]; exact e2) e3 hp0
            have rel : ∀ p p' : Key, s.result.Has p → Moves op p p' →
                List.Forall₂ (fun x x' => RuleTracks op x x' p p') xs ps := by
              intro p p' hp hmv
              have h1 := hg.template.rules
              refine forall₂_chain (List.Forall₂.flip h1) hadj (List.Forall₂.flip hrul) ?_
              intro x hx r hr r' hr' x' hx' e1 e2 e3
              have := (one r hr x hx x' hx' r' e1 e2 e3).1 hp hmv
              have hcl : Clean op s.deps := fun d hd => by
                rcases frameSound_spec hfr' d hd with ⟨h, -⟩ | ⟨h, -⟩
                · exact Or.inr (Or.inl h)
                · exact Or.inr (Or.inr h)
              exact tracks_of_follows hop hg.ok hg.summary hxs hcl hx hp this.1 this.2
            have good : ∀ r' ∈ refs, r'.Written ∧ RefOrdered r' := by
              intro r' hr'
              obtain ⟨r, hr, e2⟩ := forall₂_right hadj r' hr'
              obtain ⟨x, hx, e1⟩ := forall₂_left hg.template.rules r hr
              obtain ⟨x', hx', e3⟩ := forall₂_left hrul r' hr'
              have := one r hr x hx x' hx' r' e1 e2 e3
              exact ⟨this.2.1, this.2.2.1⟩
            have hfo : FrameOk env' result'.sheet ⟨f.origin, refs⟩ ps := by
              refine ⟨by rw [hrs, ← hg.template.home]; exact m2, fun r hr => (good r hr).1, fun r hr => (good r hr).2, ?_⟩
              refine hrul.imp fun r x hx => ?_
              refine ruleOf_of_summary ?_
              rw [summaryRule_env he]
              exact hx
            refine ⟨rfl, ⟨ps, hok, hfo, hfo, hfo, summary_of_readSummary hdeps⟩, fun p p' hp hmv => ?_⟩
            have hfo' : FrameOk env' s.result.sheet ⟨f.origin, refs⟩ ps := by rw [← hrs]; exact hfo
            exact ⟨frame_tracks henv he.ok hg.template hfo' (rel p p' hp hmv),
              frame_tracks henv he.ok hg.shown hfo' (rel p p' hp hmv),
              frame_tracks henv he.ok hg.evaluated hfo' (rel p p' hp hmv)⟩
  · cases h

/-- The three frames have the same rules: a frame with the rules of one follows another. -/
theorem frame_swap {xs xs' : List (Nat × Rule)} (henv : env.Ok) (henv' : env'.Ok) {sheet : Nat} {f g f' : Frame} {p p' : Key}
    (hf : FrameOk env sheet f xs) (hgf : FrameOk env sheet g xs) (hf' : FrameOk env' sheet f' xs')
    (h : f.Tracks op env env' f' p p') : g.Tracks op env env' f' p p' := by
  have hrel : List.Forall₂ (fun r r₂ => ∃ x, ruleOf env g.origin r = some x ∧ ruleOf env f.origin r₂ = some x ∧ r.Written ∧
      r₂.Written) g.refs f.refs := by
    refine forall₂_chain hgf.rules (List.forall₂_same.2 fun x _ => (rfl : x = x)) hf.rules
      fun r hr x _ y _ r2 hr2 e1 e2 e3 => ⟨x, e1, by rw [e2]; exact e3, hgf.written r hr, hf.written r2 hr2⟩
  unfold Frame.Tracks Frame.TracksBy at h ⊢
  revert h
  generalize f'.refs = l'
  generalize g.refs = l1 at hrel
  generalize f.refs = l2 at hrel
  intro h
  induction hrel generalizing l' with
  | nil => cases h; exact .nil
  | cons e _ ih =>
    cases h with
    | cons h1 h2 =>
      refine .cons ?_ (ih _ h2)
      obtain ⟨x, e1, e2, w1, w2⟩ := e
      obtain ⟨⟨-, -, a3, a4⟩, a5⟩ := ruleOf_spec henv w1 e1
      obtain ⟨⟨-, -, b3, b4⟩, b5⟩ := ruleOf_spec henv w2 e2
      have kind : Ref.WholeCols _ ↔ Ref.WholeCols _ := ⟨fun hw => let ⟨a, b, hab⟩ := b5 hw; a3 a b hab,
        fun hw => let ⟨a, b, hab⟩ := a5 hw; b3 a b hab⟩
      have den : ∀ k : Key, _ ↔ _ := fun k => (a4 p k).trans (b4 p k).symm
      refine ⟨⟨fun k k' hk => ?_, fun k hk => h1.1.kept k ((den k).1 hk)⟩,
        fun hno => h1.2.1 fun hw => hno (kind.1 hw), h1.2.2.trans kind⟩
      rw [den k]; exact h1.1.same k k' hk

/-- **A span that is moved, with its formula or by rewriting it.**  Its cells are where the operation puts them, and the
formulas follow. -/
theorem moved_tracks (hop : op.Fits) (henv : env.Ok) (he : EnvMoves op env env') (hg : Good env s) (hgrid : Grid op s)
    (hnc : classifySpan op s.result s.deps ≠ .compact) (h : apply env op s = .moved s') :
    Good env' s' ∧ (∀ p : Key, s.result.Has p → ∃ p', op.move p = some p' ∧ s'.result.Has p' ∧
      FramesTrack op env env' s s' p p') ∧ ∀ p' : Key, s'.result.Has p' → ∃ p, s.result.Has p ∧ op.move p = some p' := by
  obtain ⟨xs, hg⟩ := hg
  have hplan : ∃ a b, classifySpan op s.result s.deps = .shift a b ∧ applyShift env op s a b = .moved s' := by
    unfold apply at h
    cases hc : classifySpan op s.result s.deps with
    | noOp => rw [hc] at h; cases h
    | shift a b => rw [hc] at h; exact ⟨a, b, rfl, h⟩
    | split =>
      rw [hc] at h
      dsimp only at h
      rcases applySplit_out op s with e | ⟨u, l, e⟩ <;> rw [e] at h <;> cases h
    | compact => exact absurd hc hnc
    | demote => rw [hc] at h; cases h
    | remove => rw [hc] at h; cases h
  obtain ⟨a, b, hc, ha⟩ := hplan
  obtain ⟨hab, rs, hcr⟩ := span_shift hc
  unfold applyShift at ha
  split at ha
  · cases ha
  · next f hf =>
    split at ha
    · cases ha
    · next result' hr =>
      obtain ⟨k1, k2⟩ := shift_cells hop hg.ok hab hr
      have hsh := shiftDomain_spec hr hg.ok
      cases b with
      | true =>
        rw [if_pos rfl] at ha
        have : a = true := by
          cases a with
          | true => rfl
          | false => have := plan_no_other hcr; cases this
        subst this
        simp only [if_true] at hf
        obtain ⟨e1, e2, e3⟩ := rewrite_core hop henv he hg hgrid.refs hf hsh.sheet ha hsh.ok
        refine ⟨e2, fun p hp => ?_, by rw [e1]; exact k2⟩
        obtain ⟨p', hm, hp'⟩ := k1 p hp
        exact ⟨p', hm.move, by rw [e1]; exact hp', e3 p p' hp hm⟩
      | false =>
        rw [if_neg (by simp)] at ha
        split at ha
        · cases ha
        · next deps' hd =>
          cases ha
          obtain ⟨xs', hsum', hfr⟩ := shift_core hop henv he hg.ok hg.summary hgrid.deps hc hr hd
            (rulesOk_of_frame henv hg.template)
          obtain ⟨f1, f2⟩ := hfr hg.template hf
          have f1' : FrameOk env' result'.sheet f xs' := by rw [hsh.sheet]; exact f1
          refine ⟨⟨xs', hsh.ok, f1', f1', f1', hsum'⟩, fun p hp => ?_, k2⟩
          obtain ⟨p', hm, hp'⟩ := k1 p hp
          have ft := f2 p p' hp hm
          exact ⟨p', hm.move, hp', ft, frame_swap henv he.ok hg.template hg.shown f1 ft,
            frame_swap henv he.ok hg.template hg.evaluated f1 ft⟩

/-- **A span that is removed.**  All of its cells are deleted. -/
theorem removed_gone (hop : op.Fits) (h : apply env op s = .removed) (p : Key) (hp : s.result.Has p) : op.move p = none := by
  have hcase : op.classify s.result = .contained := by
    unfold apply at h
    cases hc : classifySpan op s.result s.deps with
    | remove =>
      unfold classifySpan at hc
      cases hcl : op.classify s.result with
      | contained => rfl
      | straddles => rw [hcl] at hc; dsimp only at hc; split at hc <;> cases hc
      | above =>
        rw [hcl] at hc; dsimp only at hc; unfold classifyReads at hc
        split at hc
        · cases hc
        · dsimp only at hc
          split at hc
          · split at hc <;> cases hc
          · split at hc
            · cases hc
            · split at hc
              · cases hc
              · split at hc <;> cases hc
      | below =>
        rw [hcl] at hc; dsimp only at hc; unfold classifyReads at hc
        split at hc
        · cases hc
        · simp only [Bool.not_false, if_true] at hc
          split at hc <;> cases hc
      | otherSheet =>
        rw [hcl] at hc; dsimp only at hc; unfold classifyReads at hc
        split at hc
        · cases hc
        · simp only [Bool.not_false, if_true] at hc
          split at hc <;> cases hc
    | noOp => rw [hc] at h; cases h
    | demote => rw [hc] at h; cases h
    | shift a b =>
      rw [hc] at h
      dsimp only at h
      rcases applyShift_out env op s a b with e | e | ⟨s', e⟩ <;> rw [e] at h <;> cases h
    | split =>
      rw [hc] at h
      dsimp only at h
      rcases applySplit_out op s with e | ⟨u, l, e⟩ <;> rw [e] at h <;> cases h
    | compact =>
      rw [hc] at h
      dsimp only at h
      rcases applyCompact_out op s with e | ⟨s', e⟩ <;> rw [e] at h <;> cases h
  have hb := has_bounds (has_axis (op := op) hp)
  have hl := last_eq hop
  have hrm := hop.room
  have hs : p.sheet = op.sheet ∧ op.del = true ∧ op.at_ ≤ op.coord p ∧ op.coord p < op.at_ + op.count := by
    unfold Op.classify at hcase
    split at hcase
    · cases hcase
    · next hsh =>
      simp only [ne_eq, Decidable.not_not] at hsh
      unfold Op.classifyAxis at hcase
      split at hcase
      · next hd =>
        split at hcase
        · cases hcase
        · split at hcase
          · cases hcase
          · split at hcase
            · exact ⟨by rw [hp.1]; exact hsh, hd, by omega, by omega⟩
            · cases hcase
      · split at hcase
        · cases hcase
        · split at hcase <;> cases hcase
  have hn := (moveCoord_none op (op.coord p)).2 hs.2
  unfold Op.move
  rw [if_neg (by simp [hs.1])]
  unfold Op.coord at hn
  split
  · next hr => rw [if_pos hr] at hn; rw [hn]; rfl
  · next hr => rw [if_neg hr] at hn; rw [hn]; rfl

end

end Verif.Plane.Edit

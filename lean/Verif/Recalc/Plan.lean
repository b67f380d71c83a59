import Verif.Recalc.History

/-!
# C18: recalculation plans

A plan orders all formula cells once; it is used again after values were edited.
-/

namespace Verif.Recalc

open Verif.Sched (upd sortNat dedupSorted Schedule Orders Valid Edge Reach)
open Relation

variable {α : Type}

theorem planSteps_flat (D : List Nat) (steps : List (Bool × List Nat)) :
    (planSteps D steps).flatMap Prod.snd = (steps.flatMap Prod.snd).filter fun v => decide (v ∈ D) := by
  induction steps with
  | nil => rfl
  | cons u steps ih =>
    have h : planSteps D (u :: steps) =
        (if (u.2.filter fun v => decide (v ∈ D)) = [] then [] else [(u.1, u.2.filter fun v => decide (v ∈ D))]) ++
          planSteps D steps := by
      unfold planSteps
      rw [List.map_cons, List.filter_cons]
      by_cases hu : (u.2.filter fun v => decide (v ∈ D)) = []
      · simp [hu]
      · simp [hu]
    rw [h, List.flatMap_append, ih, List.flatMap_cons, List.filter_append]
    congr 1
    split
    · rename_i hu
      rw [hu]; rfl
    · simp

theorem planSteps_split (D : List Nat) (steps pre post : List (Bool × List Nat)) (c : Bool) (b : List Nat)
    (h : planSteps D steps = pre ++ (c, b) :: post) :
    ∃ pre' b' post', steps = pre' ++ (c, b') :: post' ∧ b = (b'.filter fun v => decide (v ∈ D)) ∧ b ≠ [] ∧
      pre.flatMap Prod.snd = (pre'.flatMap Prod.snd).filter fun v => decide (v ∈ D) := by
  induction steps generalizing pre with
  | nil => simp [planSteps] at h
  | cons u steps ih =>
    by_cases hu : (u.2.filter fun v => decide (v ∈ D)) = []
    · have h1 : planSteps D (u :: steps) = planSteps D steps := by
        unfold planSteps
        rw [List.map_cons, List.filter_cons]
        simp [hu]
      rw [h1] at h
      obtain ⟨pre', b', post', h2, h3, h4, h5⟩ := ih pre h
      refine ⟨u :: pre', b', post', by rw [h2]; rfl, h3, h4, ?_⟩
      rw [List.flatMap_cons, List.filter_append, hu, List.nil_append]
      exact h5
    · have h1 : planSteps D (u :: steps) = (u.1, u.2.filter fun v => decide (v ∈ D)) :: planSteps D steps := by
        unfold planSteps
        rw [List.map_cons, List.filter_cons]
        simp [hu]
      rw [h1] at h
      cases pre with
      | nil =>
        simp only [List.nil_append, List.cons.injEq, Prod.mk.injEq] at h
        obtain ⟨⟨rfl, rfl⟩, h2⟩ := h
        exact ⟨[], u.2, steps, rfl, rfl, hu, rfl⟩
      | cons p pre =>
        simp only [List.cons_append, List.cons.injEq] at h
        obtain ⟨rfl, h2⟩ := h
        obtain ⟨pre', b', post', h3, h4, h5, h6⟩ := ih pre h2
        refine ⟨u :: pre', b', post', by rw [h3]; rfl, h4, h5, ?_⟩
        rw [List.flatMap_cons, List.flatMap_cons, List.filter_append, h6]

/-- Leaving out vertices keeps a schedule valid, if whatever depends on a kept vertex is kept. -/
theorem planSteps_valid {S D : List Nat} {adj : Nat → List Nat} {steps : List (Bool × List Nat)} (hV : Valid S adj steps)
    (hsub : ∀ v ∈ D, v ∈ S) (hup : ∀ v ∈ S, ∀ d ∈ D, d ∈ adj v → v ∈ D) : Valid D adj (planSteps D steps) := by
  have hpath : ∀ x y, TransGen (Edge S adj) x y → y ∈ D → TransGen (Edge D adj) x y ∧ x ∈ D := by
    intro x y h
    induction h with
    | single h =>
      intro hy
      have hx := hup _ h.1 _ hy h.2.2
      exact ⟨.single ⟨hx, hy, h.2.2⟩, hx⟩
    | tail _ h ih =>
      intro hz
      have hy := hup _ h.1 _ hz h.2.2
      obtain ⟨h1, h2⟩ := ih hy
      exact ⟨.tail h1 ⟨hy, hz, h.2.2⟩, h2⟩
  have hback : ∀ x y, TransGen (Edge D adj) x y → TransGen (Edge S adj) x y := by
    intro x y h
    exact TransGen.mono (fun a b he => ⟨hsub a he.1, hsub b he.2.1, he.2.2⟩) _ _ h
  have hreach : ∀ x y, y ∈ D → (Reach S adj x y ↔ Reach D adj x y) := by
    intro x y hy
    unfold Reach
    constructor
    · intro h
      induction h using ReflTransGen.head_induction_on with
      | refl => exact .refl
      | @head a b hab _ ih =>
        have hb : b ∈ D := by
          cases ih using ReflTransGen.head_induction_on with
          | refl => exact hy
          | head h1 _ => exact h1.1
        exact .head ⟨hup a hab.1 b hb hab.2.2, hb, hab.2.2⟩ ih
    · intro h
      exact ReflTransGen.mono (fun a b he => ⟨hsub a he.1, hsub b he.2.1, he.2.2⟩) _ _ h
  refine ⟨?_, ?_, ?_, ?_, ?_⟩
  · intro v
    rw [planSteps_flat, List.mem_filter, hV.mem, decide_eq_true_eq]
    exact ⟨fun h => h.2, fun h => ⟨hsub v h, h⟩⟩
  · rw [planSteps_flat]
    exact hV.nodup.filter _
  · intro pre c b post he v hv d hd hdD
    obtain ⟨pre', b', post', h1, rfl, -, h3⟩ := planSteps_split D steps pre post c b he
    rw [List.mem_filter] at hv
    rw [h3, List.mem_filter, List.mem_filter, decide_eq_true_eq]
    rcases hV.order pre' c b' post' h1 v hv.1 d hd (hsub d hdD) with h | h
    · exact Or.inl ⟨h, hdD⟩
    · exact Or.inr ⟨h.1, h.2, hdD⟩
  · intro b hb
    obtain ⟨pre, post, he⟩ := List.append_of_mem hb
    obtain ⟨pre', b', post', h1, rfl, h2, -⟩ := planSteps_split D steps pre post true b he
    refine ⟨h2, ?_⟩
    intro x hx
    rw [List.mem_filter, decide_eq_true_eq] at hx
    have hm : (true, b') ∈ steps := by rw [h1]; simp
    obtain ⟨h3, h4⟩ := (hV.cyc b' hm).2 x hx.1
    refine ⟨(hpath x x h3 hx.2).1, ?_⟩
    intro y
    rw [List.mem_filter, decide_eq_true_eq, h4 y]
    constructor
    · rintro ⟨⟨h5, h6⟩, hy⟩
      exact ⟨(hreach x y hy).1 h5, (hreach y x hx.2).1 h6⟩
    · rintro ⟨h5, h6⟩
      have hy : y ∈ D := by
        unfold Reach at h5
        cases h5 with
        | refl => exact hx.2
        | tail _ h => exact h.2.1
      exact ⟨⟨(hreach x y hy).2 h5, (hreach y x hx.2).2 h6⟩, hy⟩
  · intro b hb
    obtain ⟨pre, post, he⟩ := List.append_of_mem hb
    obtain ⟨pre', b', post', h1, rfl, h2, -⟩ := planSteps_split D steps pre post false b he
    refine ⟨h2, ?_⟩
    intro x hx hc
    rw [List.mem_filter] at hx
    have hm : (false, b') ∈ steps := by rw [h1]; simp
    exact (hV.acyc b' hm).2 x hx.1 (hback x x hc)

theorem valid_congr {S S' : List Nat} {adj adj' : Nat → List Nat} {steps : List (Bool × List Nat)} (hV : Valid S adj steps)
    (hS : ∀ v, v ∈ S ↔ v ∈ S') (h : ∀ v ∈ S, ∀ d ∈ S, d ∈ adj v ↔ d ∈ adj' v) : Valid S' adj' steps := by
  have he : Edge S adj = Edge S' adj' := by
    funext x y
    apply propext
    constructor
    · rintro ⟨h1, h2, h3⟩
      exact ⟨(hS x).1 h1, (hS y).1 h2, (h x h1 y h2).1 h3⟩
    · rintro ⟨h1, h2, h3⟩
      exact ⟨(hS x).2 h1, (hS y).2 h2, (h x ((hS x).2 h1) y ((hS y).2 h2)).2 h3⟩
  have hr : ∀ x y, Reach S adj x y ↔ Reach S' adj' x y := by
    intro x y
    unfold Reach
    rw [he]
  refine ⟨fun v => (hV.mem v).trans (hS v), hV.nodup, ?_, ?_, ?_⟩
  · intro pre c b post hs v hv d hd hdS
    have hvS : v ∈ S := by
      refine (hV.mem v).1 ?_
      rw [hs, List.flatMap_append, List.flatMap_cons]
      exact List.mem_append.2 (Or.inr (List.mem_append.2 (Or.inl hv)))
    have hdS' := (hS d).2 hdS
    exact hV.order pre c b post hs v hv d ((h v hvS d hdS').2 hd) hdS'
  · intro b hb
    obtain ⟨h1, h2⟩ := hV.cyc b hb
    refine ⟨h1, fun x hx => ?_⟩
    obtain ⟨h3, h4⟩ := h2 x hx
    rw [he] at h3
    refine ⟨h3, fun y => ?_⟩
    rw [h4 y, hr, hr]
  · intro b hb
    obtain ⟨h1, h2⟩ := hV.acyc b hb
    refine ⟨h1, fun x hx => ?_⟩
    have := h2 x hx
    rwa [he] at this

/-- What the formula of `v` refers to in a book without computed references. -/
def Book.refs (b : Book α) (v : Nat) : List Nat := (b.body v).deps ++ (b.body v).ranges.filter (· ≠ v)

/-- The plan orders the formula cells of the engine, as long as it is not stale. -/
structure PlanOk (p : Plan) (e : Engine α) : Prop where
  past : p.epoch ≤ e.epoch
  valid : p.epoch = e.epoch → ∃ F, (∀ v, v ∈ F ↔ e.book.kind v = .formula) ∧ Valid F e.book.refs p.schedule.steps

/-- Every formula inside a range of another one is dirty. -/
def RangesDirty (e : Engine α) : Prop :=
  ∀ v, ∀ u ∈ (e.book.body v).ranges, e.book.kind u = .formula → u ≠ v → u ∈ e.dirty.flags

/-- A plan built while the formulas inside ranges are dirty is good. -/
theorem buildPlan_ok {c : Config} (hc : c.Fair) {e : Engine α} (h : Inv e) (hst : e.book.Static) (hr : RangesDirty e) :
    ∃ p, buildPlan c e = .ok p ∧ PlanOk p e := by
  obtain ⟨s, h1, h2⟩ := uncached_valid hc h.ok (formulaCells e)
  refine ⟨⟨e.epoch, s, (formulaCells e).any fun v => e.book.dynamic v⟩, by simp only [buildPlan, h1], Nat.le_refl _, fun _ => ?_⟩
  have hF : ∀ v, v ∈ formulaCells e ↔ e.book.kind v = .formula := by
    intro v
    unfold formulaCells
    rw [mem_sortNat, List.mem_filter, decide_eq_true_eq]
    exact ⟨fun h => h.2, fun hk => ⟨h.ok.mem v (by rw [hk]; simp), hk⟩⟩
  refine ⟨formulaCells e, hF, valid_congr h2 (fun _ => Iff.rfl) ?_⟩
  intro v hv d hd
  unfold vdeps Book.refs
  rw [if_pos hv, List.mem_append, List.mem_append, mem_vdepsOf]
  refine or_congr Iff.rfl ?_
  have hdyn : dynVDeps e v = [] := by
    unfold dynVDeps
    rw [if_neg]
    rw [hst v (by rw [(hF v).1 hv]; simp)]
    simp
  rw [hdyn]
  simp only [rangeVDeps, List.mem_filter, List.not_mem_nil, or_false, Bool.and_eq_true, decide_eq_true_eq]
  constructor
  · exact fun h => ⟨h.1, h.2.2⟩
  · intro hu
    refine ⟨hu.1, ?_, hu.2⟩
    simp [pending, (hF d).1 hd, hr v d hu.1 ((hF d).1 hd) hu.2]

/-- A book without names. -/
def Book.NoNames (b : Book α) : Prop := ∀ v, b.kind v ≠ .name

/-- C18: a good plan that is not stale brings the workbook up to date. -/
theorem evaluatePlan_recalculates {c : Config} (hc : c.Fair) {e : Engine α} (h : Inv e) (hst : e.book.Static)
    (hnn : e.book.NoNames) {p : Plan} (hp : PlanOk p e) (hepoch : p.epoch = e.epoch) (now : Nat) :
    ∃ e', evaluatePlan c now e p = some (.done e') ∧ e'.book = e.book ∧ e'.clock = now ∧
      e.book.Recalculated now e.store e'.store ∧ Inv e' := by
  unfold evaluatePlan
  rw [if_neg (by simp [hepoch])]
  by_cases hdy : p.dynamic = true
  · rw [if_pos hdy]
    obtain ⟨e', h1, h2⟩ := evaluateAll_recalculates hc h hst now
    exact ⟨e', by rw [h1], h2⟩
  rw [if_neg hdy]
  have h0 := clock_inv h now
  have hS := mem_candidates h0
  simp only
  by_cases hnil : candidates { e with clock := now } = []
  · rw [if_pos hnil]
    refine ⟨_, rfl, rfl, rfl, ⟨fun _ _ => rfl, fun v hk => h0.clean v hk ?_⟩, h0⟩
    intro hf
    have := (hS v).2 ⟨hk, hf⟩
    rw [hnil] at this
    cases this
  rw [if_neg hnil]
  obtain ⟨F, hF, hV⟩ := hp.valid hepoch
  have hVD : Valid (candidates { e with clock := now }) e.book.refs
      (planSteps (candidates { e with clock := now }) p.schedule.steps) := by
    refine planSteps_valid hV ?_ ?_
    · intro v hv
      rw [hF]
      have := ((hS v).1 hv).1
      cases hk : e.book.kind v with
      | value => exact absurd hk this
      | formula => rfl
      | name => exact absurd hk (hnn v)
    · intro v _ d hd hr
      refine (hS v).2 (dirty_back h0 (σ := e.store) ((hS d).1 hd) ?_)
      unfold Book.refs at hr
      rw [List.mem_append, List.mem_filter, decide_eq_true_eq] at hr
      rcases hr with hr | hr
      · exact Or.inl hr
      · exact Or.inr (Or.inl hr)
  have href : ∀ (σ : Nat → α) v, v ∈ candidates { e with clock := now } → ∀ d, e.book.Refers σ v d ↔ d ∈ e.book.refs v := by
    intro σ v hv d
    unfold Book.refs
    rw [refers_static (hst v ((hS v).1 hv).1), List.mem_append, List.mem_filter, decide_eq_true_eq]
  have hR : e.book.Recalculated now e.store
      (runSteps c e.book now (planSteps (candidates { e with clock := now }) p.schedule.steps) e.store) :=
    pass_core c h0 hS hVD (fun v hv d _ hr => (href _ v hv d).1 hr) (fun v hv d hr => (href _ v hv d).2 hr)
  have hnone : ∀ v, e.book.kind v ≠ .value →
      v ∉ (Dirty.clearDirty e.dirty (candidates { e with clock := now })).flags := by
    intro v hkv hv
    simp only [Dirty.clearDirty, List.mem_filter, decide_eq_true_eq] at hv
    exact hv.2 ((hS v).2 ⟨hkv, hv.1⟩)
  obtain ⟨h1, h2, h3, h4⟩ := redirty_inv
    (e := { e with
        clock := now
        store := runSteps c e.book now (planSteps (candidates { e with clock := now }) p.schedule.steps) e.store
        dirty := Dirty.clearDirty e.dirty (candidates { e with clock := now }) })
    h.ok h.depth
    (by
      intro v hkv
      show v ∈ (Dirty.clearDirty e.dirty (candidates { e with clock := now })).dirtySet ↔
        v ∈ (Dirty.clearDirty e.dirty (candidates { e with clock := now })).flags
      simp only [Dirty.clearDirty, List.mem_filter]
      rw [h.same v hkv])
    (fun u v hkv hu _ => absurd hu (hnone u hkv))
    (fun v hkv _ => hR.formulas v hkv) h.cache
  refine ⟨_, rfl, h2, h4, ?_, h1⟩
  have h5 : ∀ σ, σ = runSteps c e.book now (planSteps (candidates { e with clock := now }) p.schedule.steps) e.store →
      e.book.Recalculated now e.store σ := by
    rintro _ rfl
    exact hR
  exact h5 _ h3

/-! ## Plans and histories -/

theorem mark_epoch (e : Engine α) (vs : List Nat) : (mark e vs).epoch = e.epoch := by
  unfold mark
  split <;> rfl

theorem evalLoop_frame (c : Config) (n : Nat) (e e' : Engine α) (h : evalLoop c n e = .done e') :
    e'.book = e.book ∧ e'.epoch = e.epoch := by
  induction n generalizing e with
  | zero =>
    rw [evalLoop.eq_def] at h
    simp only at h
    split at h
    · cases h; exact ⟨rfl, rfl⟩
    · split at h
      · split at h
        · cases h; exact ⟨rfl, rfl⟩
        · cases h
      · cases h
  | succ n ih =>
    rw [evalLoop.eq_def] at h
    simp only at h
    split at h
    · cases h; exact ⟨rfl, rfl⟩
    · split at h
      · split at h
        · cases h; exact ⟨rfl, rfl⟩
        · have h1 := ih _ h
          exact ⟨h1.1, h1.2⟩
      · cases h

theorem evaluateAll_frame {c : Config} {now : Nat} {e e' : Engine α} (h : evaluateAll c now e = .done e') :
    e'.book = e.book ∧ e'.epoch = e.epoch := by
  unfold evaluateAll at h
  cases hl : evalLoop c 5 { e with clock := now } with
  | done f =>
    rw [hl] at h
    simp only [Outcome.done.injEq] at h
    subst h
    obtain ⟨h1, h2⟩ := evalLoop_frame c 5 _ f hl
    exact ⟨by rw [redirty, (mark_frame f _).1, h1], by rw [redirty, mark_epoch, h2]⟩
  | exhausted f => rw [hl] at h; cases h
  | failed => rw [hl] at h; cases h

theorem targetLoop_frame (c : Config) (roots : List Nat) (n : Nat) (e e' : Engine α)
    (h : targetLoop c roots n e = .done e') : e'.book = e.book ∧ e'.epoch = e.epoch := by
  induction n generalizing e with
  | zero =>
    rw [targetLoop.eq_def] at h
    simp only at h
    split at h
    · cases h
    · split at h
      · cases h; exact ⟨rfl, rfl⟩
      · split at h
        · split at h
          · cases h; exact ⟨rfl, rfl⟩
          · cases h
        · cases h
  | succ n ih =>
    rw [targetLoop.eq_def] at h
    simp only at h
    split at h
    · cases h
    · split at h
      · cases h; exact ⟨rfl, rfl⟩
      · split at h
        · split at h
          · cases h; exact ⟨rfl, rfl⟩
          · have h1 := ih _ h
            exact ⟨h1.1, h1.2⟩
        · cases h

theorem evaluateTargets_frame {c : Config} {now : Nat} {e e' : Engine α} {roots : List Nat}
    (h : evaluateTargets c now e roots = .done e') : e'.book = e.book ∧ e'.epoch = e.epoch := by
  unfold evaluateTargets at h
  cases hl : targetLoop c roots 5 { e with clock := now } with
  | done f =>
    rw [hl] at h
    simp only [Outcome.done.injEq] at h
    subst h
    obtain ⟨h1, h2⟩ := targetLoop_frame c roots 5 _ f hl
    exact ⟨by rw [redirty, (mark_frame f _).1, h1], by rw [redirty, mark_epoch, h2]⟩
  | exhausted f => rw [hl] at h; cases h
  | failed => rw [hl] at h; cases h

/-- Every step keeps a plan good: an edit that changes what formulas there are or what they refer to makes it stale. -/
theorem step_planOk {e e' : Engine α} (h : Inv e) {p : Plan} (hp : PlanOk p e) (hnn : e.book.NoNames) (o : Op α)
    (hs : step e o = some e') : PlanOk p e' ∧ e'.book.NoNames := by
  have keep : e'.book = e.book ∧ e'.epoch = e.epoch → PlanOk p e' ∧ e'.book.NoNames := by
    rintro ⟨h1, h2⟩
    refine ⟨⟨by rw [h2]; exact hp.past, ?_⟩, by rw [h1]; exact hnn⟩
    rw [h1, h2]
    exact hp.valid
  cases o with
  | value v a =>
    simp only [step, Option.some.injEq] at hs
    subst hs
    obtain ⟨h1, -⟩ := setValue_frame e v a
    have hkind : (setValue e v a).book.NoNames := by
      intro x
      rw [h1]
      by_cases hx : x = v
      · subst hx
        rw [show (e.book.setValue x).kind x = .value from upd_same _ _ _]
        simp
      · rw [show (e.book.setValue v).kind x = e.book.kind x from upd_ne _ _ hx]
        exact hnn x
    refine ⟨?_, hkind⟩
    by_cases hk : e.book.kind v = .formula
    · have he : (setValue e v a).epoch = e.epoch + 1 := by
        unfold setValue
        simp only
        rw [if_pos hk]
        show (mark _ _).epoch + 1 = _
        rw [mark_epoch]
      have := hp.past
      exact ⟨by omega, by intro h2; omega⟩
    · have he : (setValue e v a).epoch = e.epoch := by
        unfold setValue
        simp only
        rw [if_neg hk, mark_epoch]
      have hkv : e.book.kind v = .value := by
        cases hkk : e.book.kind v with
        | value => rfl
        | formula => exact absurd hkk hk
        | name => exact absurd hkk (hnn v)
      refine ⟨by rw [he]; exact hp.past, ?_⟩
      intro h2
      rw [he] at h2
      obtain ⟨F, hF, hV⟩ := hp.valid h2
      refine ⟨F, ?_, ?_⟩
      · intro x
        rw [hF, h1]
        by_cases hx : x = v
        · subst hx
          rw [show (e.book.setValue x).kind x = .value from upd_same _ _ _, hkv]
        · rw [show (e.book.setValue v).kind x = e.book.kind x from upd_ne _ _ hx]
      · have : (setValue e v a).book.refs = e.book.refs := by
          funext x
          unfold Book.refs
          rw [h1]
          by_cases hx : x = v
          · subst hx
            rw [show (e.book.setValue x).body x = .empty from upd_same _ _ _, h.ok.empty x hkv]
          · rw [show (e.book.setValue v).body x = e.book.body x from upd_ne _ _ hx]
        rw [this]
        exact hV
  | formula bulk v f old =>
    simp only [step, setFormula] at hs
    split at hs
    · cases hs
    · simp only [Option.some.injEq] at hs
      subst hs
      have he : (markTopology (putFormula e v f old)).epoch = e.epoch + 1 := by
        show (mark _ _).epoch + 1 = _
        rw [mark_epoch]
      have := hp.past
      refine ⟨⟨by omega, by intro h2; omega⟩, ?_⟩
      intro x
      show (putFormula e v f old).book.kind x ≠ .name
      rw [(putFormula_frame e v f old).1]
      by_cases hx : x = v
      · subst hx
        rw [show (e.book.setFormula x f).kind x = .formula from upd_same _ _ _]
        simp
      · rw [show (e.book.setFormula v f).kind x = e.book.kind x from upd_ne _ _ hx]
        exact hnn x
  | all c now =>
    simp only [step] at hs
    cases hl : evaluateAll c now e with
    | done f =>
      rw [hl] at hs
      simp only [Option.some.injEq] at hs
      subst hs
      exact keep (evaluateAll_frame hl)
    | exhausted f => rw [hl] at hs; cases hs
    | failed => rw [hl] at hs; cases hs
  | targets c now roots =>
    simp only [step] at hs
    cases hl : evaluateTargets c now e roots with
    | done f =>
      rw [hl] at hs
      simp only [Option.some.injEq] at hs
      subst hs
      exact keep (evaluateTargets_frame hl)
    | exhausted f => rw [hl] at hs; cases hs
    | failed => rw [hl] at hs; cases hs

theorem run_planOk {e e' : Engine α} (h : Inv e) (hst : e.book.Static) {k : Nat → Content α} (hk : Holds e k) {p : Plan}
    (hp : PlanOk p e) (hnn : e.book.NoNames) (os : List (Op α)) (ho : AllAllowed e os) (hs : run e os = some e') :
    PlanOk p e' ∧ e'.book.NoNames := by
  induction os generalizing e k with
  | nil =>
    simp only [run, Option.some.injEq] at hs
    subst hs
    exact ⟨hp, hnn⟩
  | cons o os ih =>
    obtain ⟨e1, h1, h2, h3, h4, -⟩ := step_inv h hst hk o ho.1
    simp only [run, h1] at hs
    obtain ⟨h6, h7⟩ := step_planOk h hp hnn o h1
    exact ih h2 h3 h4 h6 h7 (ho.2 e1 h1) hs

/-- **C47** (part) A plan that was built while the formulas inside ranges were dirty, in a workbook without names and computed
references, either is refused as stale after later edits, or shows the values that the contents determine. Missing: plans built
on a clean workbook (`plan_clean_wrong`) and names (`plan_name_wrong`). -/
theorem plan_correct_partial {e : Engine α} (h : Inv e) (hst : e.book.Static) (hnn : e.book.NoNames) (hr : RangesDirty e)
    {k : Nat → Content α} (hk : Holds e k) {c d : Config} (hc : c.Fair) (hd : d.Fair) (os : List (Op α))
    (ho : AllAllowed e os) (now : Nat) :
    ∃ p e1, buildPlan c e = .ok p ∧ run e os = some e1 ∧
      (evaluatePlan d now e1 p = none ∨ ∃ e', evaluatePlan d now e1 p = some (.done e') ∧
        ∀ σ, Shows (os.foldl Content.step k) e.book.circ now σ → e'.store = σ) := by
  obtain ⟨p, hp1, hp2⟩ := buildPlan_ok hc h hst hr
  obtain ⟨e1, h1, h2, h3, h4, h5⟩ := run_inv h hst hk os ho
  obtain ⟨h6, h7⟩ := run_planOk h hst hk hp2 hnn os ho h1
  refine ⟨p, e1, hp1, h1, ?_⟩
  by_cases he : p.epoch = e1.epoch
  · right
    obtain ⟨e', h8, -, -, h9, -⟩ := evaluatePlan_recalculates hd h2 h3 h7 h6 he now
    refine ⟨e', h8, fun σ hσ => ?_⟩
    rw [← h5] at hσ
    exact recalculated_unique h2.ok h3 h9 ((shows_iff h2.ok h3 h4 now σ).1 hσ)
  · left
    unfold evaluatePlan
    rw [if_pos he]

end Verif.Recalc

import Verif.Recalc.Plan
import Mathlib.Tactic.ByContra

/-!
# C18: concrete workbooks, and where recalculation goes wrong

Vertices: 0 is A1, 1 is B1, 2 is C1, 3 is D1.
-/

namespace Verif.Recalc

open Verif.Sched (upd sortNat dedupSorted Schedule Orders Valid Edge)

/-- `=d1 + ... + dn + c` -/
def plus (ds : List Nat) (c : Nat) : Formula Nat :=
  { deps := ds
    ranges := []
    hasRange := false
    volatile := false
    dynamic := false
    sem := fun _ σ => ds.foldl (fun a d => a + σ d) c
    cells := fun _ => []
    areas := fun _ => [] }

/-- `=SUM(range)`, a compressed range. -/
def sumRange (rs : List Nat) : Formula Nat :=
  { deps := []
    ranges := rs
    hasRange := true
    volatile := false
    dynamic := false
    sem := fun _ σ => rs.foldl (fun a d => a + σ d) 0
    cells := fun _ => []
    areas := fun _ => [] }

def plain : Config := ⟨⟨id, id⟩, false⟩
def threaded : Config := ⟨⟨List.reverse, List.reverse⟩, true⟩

theorem plain_fair : plain.Fair := ⟨fun _ => .refl _, fun _ => .refl _⟩
theorem threaded_fair : threaded.Fair := ⟨fun l => List.reverse_perm l, fun l => List.reverse_perm l⟩

def start : Engine Nat := fresh (emptyBook 999) fun _ => 0

theorem start_inv : Inv start := fresh_inv (emptyBook_ok 999) _
theorem start_static : start.book.Static := fun _ _ => rfl
theorem start_holds : Holds start fun _ => .plain 0 := fun _ => ⟨rfl, rfl⟩

def vals (e : Option (Engine Nat)) (vs : List Nat) : Option (List Nat) := e.map fun e => vs.map e.store

/-! ## A history that meets the hypotheses -/

theorem foldl_congr_mem {ds : List Nat} {σ τ : Nat → Nat} (h : ∀ d ∈ ds, τ d = σ d) (c : Nat) :
    ds.foldl (fun a d => a + τ d) c = ds.foldl (fun a d => a + σ d) c := by
  induction ds generalizing c with
  | nil => rfl
  | cons d ds ih =>
    rw [List.foldl_cons, List.foldl_cons, h d (by simp), ih fun x hx => h x (by simp [hx])]

theorem plus_fits (b : Book Nat) (v : Nat) (ds : List Nat) (c : Nat) (hd : ds.Nodup) : (plus ds c).Fits b v := by
  refine ⟨hd, ?_, fun _ _ _ _ => rfl, by simp [plus], by simp [plus], by simp [plus], by simp [plus]⟩
  intro clock σ τ h
  refine foldl_congr_mem (fun d hd => h d (.direct (Or.inl ?_))) c
  rw [show (b.setFormula v (plus ds c)).body v = plus ds c from upd_same _ _ _]
  exact hd

theorem sumRange_fits (b : Book Nat) (v : Nat) (rs : List Nat) (hv : v ∉ rs) (hn : ∀ u ∈ rs, b.kind u ≠ .name) :
    (sumRange rs).Fits b v := by
  refine ⟨List.nodup_nil, ?_, fun _ _ _ _ => rfl, by simp [sumRange], by simp [sumRange], hn, by simp [sumRange]⟩
  intro clock σ τ h
  refine foldl_congr_mem (fun d hd => h d (.direct (Or.inr (Or.inl ⟨?_, ?_⟩)))) 0
  · rw [show (b.setFormula v (sumRange rs)).body v = sumRange rs from upd_same _ _ _]
    exact hd
  · rintro rfl
    exact hv hd

/-- A1 = 1, B1 = A1 + 1, C1 = SUM(A1:B1); recalculate; A1 = 5; evaluate C1. -/
def hist : List (Op Nat) :=
  [.value 0 1, .formula false 1 (plus [0] 1) 0, .formula false 2 (sumRange [0, 1]) 0, .all plain 1, .value 0 5,
    .targets threaded 2 [2]]

theorem noNames_step {e e' : Engine Nat} (h : e.book.NoNames) (o : Op Nat) (hs : step e o = some e') : e'.book.NoNames := by
  cases o with
  | value v a =>
    simp only [step, Option.some.injEq] at hs
    subst hs
    intro x
    rw [(setValue_frame e v a).1]
    by_cases hx : x = v
    · subst hx
      rw [show (e.book.setValue x).kind x = .value from upd_same _ _ _]; simp
    · rw [show (e.book.setValue v).kind x = e.book.kind x from upd_ne _ _ hx]
      exact h x
  | formula bulk v f old =>
    simp only [step, setFormula] at hs
    split at hs
    · cases hs
    · simp only [Option.some.injEq] at hs
      subst hs
      intro x
      show (putFormula e v f old).book.kind x ≠ .name
      rw [(putFormula_frame e v f old).1]
      by_cases hx : x = v
      · subst hx
        rw [show (e.book.setFormula x f).kind x = .formula from upd_same _ _ _]; simp
      · rw [show (e.book.setFormula v f).kind x = e.book.kind x from upd_ne _ _ hx]
        exact h x
  | all c now =>
    simp only [step] at hs
    cases hl : evaluateAll c now e with
    | done f =>
      rw [hl] at hs
      simp only [Option.some.injEq] at hs
      subst hs
      rw [(evaluateAll_frame hl).1]
      exact h
    | exhausted f => rw [hl] at hs; cases hs
    | failed => rw [hl] at hs; cases hs
  | targets c now roots =>
    simp only [step] at hs
    cases hl : evaluateTargets c now e roots with
    | done f =>
      rw [hl] at hs
      simp only [Option.some.injEq] at hs
      subst hs
      rw [(evaluateTargets_frame hl).1]
      exact h
    | exhausted f => rw [hl] at hs; cases hs
    | failed => rw [hl] at hs; cases hs

/-- A vertex once made stays. -/
theorem step_vertices {e e' : Engine Nat} (o : Op Nat) (hs : step e o = some e') (x : Nat)
    (hx : x ∈ e.book.vertices ∨ (∃ a, o = .value x a) ∨ ∃ b f d, o = .formula b x f d) : x ∈ e'.book.vertices := by
  cases o with
  | value v a =>
    simp only [step, Option.some.injEq] at hs
    subst hs
    rw [(setValue_frame e v a).1]
    refine (addVertex_mem _ _ _).2 ?_
    rcases hx with hx | ⟨b, hx⟩ | ⟨b, f, d, hx⟩
    · exact Or.inr hx
    · cases hx; exact Or.inl rfl
    · cases hx
  | formula bulk v f old =>
    simp only [step, setFormula] at hs
    split at hs
    · cases hs
    · simp only [Option.some.injEq] at hs
      subst hs
      show x ∈ (putFormula e v f old).book.vertices
      rw [(putFormula_frame e v f old).1]
      show x ∈ f.deps.foldl addVertex (addVertex e.book.vertices v)
      rw [addVertices_mem, addVertex_mem]
      rcases hx with hx | ⟨b, hx⟩ | ⟨b, f, d, hx⟩
      · exact Or.inr (Or.inr hx)
      · cases hx
      · cases hx; exact Or.inr (Or.inl rfl)
  | all c now =>
    simp only [step] at hs
    rcases hx with hx | ⟨b, hx⟩ | ⟨b, f, d, hx⟩
    · cases hl : evaluateAll c now e with
      | done f =>
        rw [hl] at hs
        simp only [Option.some.injEq] at hs
        subst hs
        rw [(evaluateAll_frame hl).1]
        exact hx
      | exhausted f => rw [hl] at hs; cases hs
      | failed => rw [hl] at hs; cases hs
    · cases hx
    · cases hx
  | targets c now roots =>
    simp only [step] at hs
    rcases hx with hx | ⟨b, hx⟩ | ⟨b, f, d, hx⟩
    · cases hl : evaluateTargets c now e roots with
      | done f =>
        rw [hl] at hs
        simp only [Option.some.injEq] at hs
        subst hs
        rw [(evaluateTargets_frame hl).1]
        exact hx
      | exhausted f => rw [hl] at hs; cases hs
      | failed => rw [hl] at hs; cases hs
    · cases hx
    · cases hx

theorem hist_allowed : AllAllowed start hist := by
  have n0 : start.book.NoNames := by intro v; simp [start, fresh, emptyBook]
  refine ⟨n0 0, fun e1 h1 => ?_⟩
  have n1 := noNames_step n0 _ h1
  refine ⟨⟨n1 1, rfl, plus_fits _ _ _ _ (by simp), by simp [plus]⟩, fun e2 h2 => ?_⟩
  have n2 := noNames_step n1 _ h2
  refine ⟨⟨n2 2, rfl, sumRange_fits _ _ _ (by simp) fun u _ => n2 u, by simp [sumRange]⟩, fun e3 h3 => ?_⟩
  have n3 := noNames_step n2 _ h3
  refine ⟨plain_fair, fun e4 h4 => ?_⟩
  have n4 := noNames_step n3 _ h4
  refine ⟨n4 0, fun e5 h5 => ?_⟩
  have n5 := noNames_step n4 _ h5
  refine ⟨⟨threaded_fair, ?_, fun n hn => absurd hn (n5 n)⟩, fun _ _ => trivial⟩
  intro r hr
  simp only [List.mem_singleton] at hr
  subst hr
  refine step_vertices _ h5 2 (Or.inl (step_vertices _ h4 2 (Or.inl (step_vertices _ h3 2 (Or.inr (Or.inr ?_))))))
  exact ⟨false, sumRange [0, 1], 0, rfl⟩

/-- The hypotheses of `recalculation_correct` and `histories_agree` are met by the history above. -/
example : ∃ e1 e', run start hist = some e1 ∧ evaluateAll threaded 3 e1 = .done e' ∧
    Shows (hist.foldl Content.step fun _ => .plain 0) 999 3 e'.store ∧
    ∀ σ, Shows (hist.foldl Content.step fun _ => .plain 0) 999 3 σ → e'.store = σ :=
  recalculation_correct start_inv start_static start_holds hist hist_allowed threaded_fair 3

theorem allAllowed_append {e : Engine Nat} (xs ys : List (Op Nat)) (h : AllAllowed e (xs ++ ys)) :
    AllAllowed e xs ∧ ∀ e1, run e xs = some e1 → AllAllowed e1 ys := by
  induction xs generalizing e with
  | nil =>
    refine ⟨trivial, fun e1 h1 => ?_⟩
    cases h1
    exact h
  | cons o xs ih =>
    refine ⟨⟨h.1, fun e' hs => (ih (h.2 e' hs)).1⟩, fun e1 h1 => ?_⟩
    cases hs : step e o with
    | none => simp only [run, hs] at h1; cases h1
    | some e' =>
      simp only [run, hs] at h1
      exact (ih (h.2 e' hs)).2 e1 h1

/-- The hypotheses of `targets_correct_partial` are met by evaluating C1 at the end of this history. -/
example : ∃ e1 e', run start (hist.take 5) = some e1 ∧ evaluateTargets threaded 2 e1 [2] = .done e' ∧
    ∀ σ, Shows ((hist.take 5).foldl Content.step fun _ => .plain 0) 999 2 σ → ∀ r ∈ [2], e'.store r = σ r := by
  have h := allAllowed_append (hist.take 5) (hist.drop 5) hist_allowed
  exact targets_correct_partial start_inv start_static start_holds _ h.1 2 [2] fun e1 h1 => (h.2 e1 h1).1

def three : Engine Nat := (run start (hist.take 3)).getD start

theorem three_dirty : RangesDirty three := by
  intro v u hu hk hne
  have hb : three.book = (((start.book.setValue 0).setFormula 1 (plus [0] 1)).setFormula 2 (sumRange [0, 1])) := rfl
  have hv : v = 2 := by
    by_contra hv
    rw [hb] at hu
    by_cases h1 : v = 1 <;> by_cases h0 : v = 0 <;>
      simp_all [Book.setFormula, Book.setValue, upd, plus, start, fresh, emptyBook, Formula.empty]
  subst hv
  have hu' : u ∈ [0, 1] := by
    rw [hb] at hu
    simpa [Book.setFormula, upd, sumRange] using hu
  rw [hb] at hk
  simp only [List.mem_cons, List.not_mem_nil, or_false] at hu'
  rcases hu' with rfl | rfl
  · simp [Book.setFormula, Book.setValue, upd] at hk
  · decide +kernel

/-- The hypotheses of `plan_correct_partial` are met by a plan built after the formulas were entered, and used after
recalculation and another edit. -/
example : ∃ p e1, buildPlan plain three = .ok p ∧ run three [.all plain 1, .value 0 5] = some e1 ∧
    (evaluatePlan threaded 2 e1 p = none ∨ ∃ e', evaluatePlan threaded 2 e1 p = some (.done e') ∧
      ∀ σ, Shows ((hist.take 5).foldl Content.step fun _ => .plain 0) 999 2 σ → e'.store = σ) := by
  have h := allAllowed_append (hist.take 3) (hist.drop 3) hist_allowed
  have h' : ∀ e1, run start (hist.take 3) = some e1 → AllAllowed e1 [.all plain 1, .value 0 5] := fun e1 h1 =>
    (allAllowed_append [.all plain 1, .value 0 5] _ (h.2 e1 h1)).1
  obtain ⟨e, h1, h2, h3, h4, h5⟩ := run_inv start_inv start_static start_holds (hist.take 3) h.1
  have he : e = three := by rw [three, h1]; rfl
  subst he
  have hn : three.book.NoNames := by
    intro v hv
    have hb : three.book = (((start.book.setValue 0).setFormula 1 (plus [0] 1)).setFormula 2 (sumRange [0, 1])) := rfl
    rw [hb] at hv
    by_cases h2 : v = 2 <;> by_cases h1 : v = 1 <;> by_cases h0 : v = 0 <;>
      simp_all [Book.setFormula, Book.setValue, upd, start, fresh, emptyBook]
  obtain ⟨p, e1, g1, g2, g3⟩ := plan_correct_partial h2 h3 hn three_dirty h4 plain_fair threaded_fair _ (h' three h1) 2
  rw [h5] at g3
  exact ⟨p, e1, g1, g2, g3⟩

/-- The hypotheses of `loggedFormula_inv_partial` are met: the first formula of a workbook. -/
example : Inv (putFormula start 1 (plus [0] 1) 0) :=
  loggedFormula_inv_partial start_inv rfl (by decide) (plus_fits _ _ _ _ (by simp)) 0

/-- What it shows. -/
example : vals (run start hist) [0, 1, 2] = some [5, 6, 11] := by decide +kernel

/-- A cycle: A1 = B1 + 1, B1 = A1 + 1, C1 = B1 + 1. -/
example : vals (run start [.formula false 0 (plus [1] 1) 0, .formula false 1 (plus [0] 1) 0,
    .formula false 2 (plus [1] 1) 0, .all plain 1]) [0, 1, 2] = some [999, 999, 1000] := by decide +kernel

/-- A plan built before the first recalculation, used after a value was edited. -/
example : (match run start [.value 0 1, .formula false 1 (plus [0] 1) 0, .formula false 2 (sumRange [0, 1]) 0] with
    | none => none
    | some e =>
      match buildPlan plain e, run e [.all plain 1, .value 0 5] with
      | .ok p, some e1 =>
        match evaluatePlan threaded 2 e1 p with
        | some (.done e') => vals (some e') [0, 1, 2]
        | _ => none
      | _, _ => none) = some [5, 6, 11] := by decide +kernel

/-! ## A plan built on a clean workbook

`build_recalc_plan` takes the order of range references from the formulas that are dirty when it is built. -/

/-- A1 = 1, B1 = SUM(A1:C1 without B1), C1 = A1 + 1. Recalculate, then build a plan. Edit A1 and use the plan. -/
def stalePlan : Option (Engine Nat) :=
  match run start [.value 0 1, .formula false 1 (sumRange [0, 2]) 0, .formula false 2 (plus [0] 1) 0, .all plain 1] with
  | none => none
  | some e =>
    match buildPlan plain e, run e [.value 0 5] with
    | .ok p, some e1 =>
      match evaluatePlan plain 2 e1 p with
      | some (.done e') => some e'
      | _ => none
    | _, _ => none

/-- **C47 fails** for such a plan: B1 shows 7 instead of 11, nothing is left to recalculate, and a full recalculation
does not repair it. -/
theorem plan_clean_wrong :
    vals stalePlan [0, 1, 2] = some [5, 7, 6] ∧ stalePlan.map candidates = some [] ∧
    vals (stalePlan.bind fun e => run e [.all plain 3]) [0, 1, 2] = some [5, 7, 6] ∧
    ∀ σ : Nat → Nat, σ 0 = 5 → σ 2 = σ 0 + 1 → (sumRange [0, 2]).sem 3 σ = 11 := by
  refine ⟨by decide +kernel, by decide +kernel, by decide +kernel, ?_⟩
  intro σ h0 h2
  simp [sumRange, h0, h2]

/-! ## A name in a plan

`build_recalc_plan` orders formula cells only: a formula that reaches another one through a name is not ordered after
it, and the flag of the name is cleared without evaluating it. -/

/-- 0 is a name for A1 (vertex 2); B1 (vertex 1) is the name plus one. -/
def nameBook : Book Nat :=
  { vertices := [0, 1, 2, 3]
    kind := fun v => if v = 0 then .name else if v = 1 ∨ v = 2 then .formula else .value
    body := fun v =>
      if v = 0 then plus [2] 0
      else if v = 1 then
        { plus [0] 1 with sem := fun _ σ => σ 2 + 1 }
      else if v = 2 then plus [3] 0
      else .empty
    volatile := []
    dynamic := fun _ => false
    circ := 999 }

def namePlan : Option (Engine Nat) :=
  match run (fresh nameBook fun _ => 0) [.value 3 1, .all plain 1] with
  | none => none
  | some e =>
    match buildPlan plain e, run e [.value 3 5] with
    | .ok p, some e1 =>
      match evaluatePlan plain 2 e1 p with
      | some (.done e') => some e'
      | _ => none
    | _, _ => none

/-- **C47 fails** for plans with names: D1 = 5, C1 = D1, the name stands for C1, B1 = name + 1 shows 2 instead of 6, and the
name keeps the value 1; nothing is left to recalculate. -/
theorem plan_name_wrong :
    vals namePlan [3, 2, 0, 1] = some [5, 5, 1, 2] ∧ namePlan.map candidates = some [] ∧
    vals (namePlan.bind fun e => run e [.all plain 3]) [3, 2, 0, 1] = some [5, 5, 1, 2] := by
  refine ⟨by decide +kernel, by decide +kernel, by decide +kernel⟩

/-! ## A formula edit that does not change the topology epoch

`edit_with_logger` (eval.rs 4870-4945) and undo and redo of formula edits do not call `mark_topology_edited`, so the
cached schedule survives: the edit is `putFormula`. -/

/-- A1 = 1, B1 = A1 + 1, C1 = A1 + 2; recalculate; A1 = 2; recalculate; A1 = 5; B1 = C1 + 0 by a logged edit;
recalculate. -/
def staleCache : Option (Engine Nat) :=
  match run start [.value 0 1, .formula false 1 (plus [0] 1) 0, .formula false 2 (plus [0] 2) 0, .all plain 1,
      .value 0 2, .all plain 2, .value 0 5] with
  | none => none
  | some e => run (putFormula e 1 (plus [2] 0) 0) [.all plain 3]

/-- **C49 fails** after a logged formula edit: B1 = C1 shows 4, the value C1 had before, and nothing is left to
recalculate. -/
theorem logged_edit_wrong :
    vals staleCache [0, 1, 2] = some [5, 4, 7] ∧ staleCache.map candidates = some [] ∧
    vals (staleCache.bind fun e => run e [.all plain 4]) [0, 1, 2] = some [5, 4, 7] := by
  refine ⟨by decide +kernel, by decide +kernel, by decide +kernel⟩

/-- The same edit with the topology marked is right. -/
theorem marked_edit_right :
    vals (run start [.value 0 1, .formula false 1 (plus [0] 1) 0, .formula false 2 (plus [0] 2) 0, .all plain 1,
      .value 0 2, .all plain 2, .value 0 5, .formula false 1 (plus [2] 0) 0, .all plain 3]) [0, 1, 2] = some [5, 7, 7] := by
  decide +kernel

/-! ## A computed reference that changes

The vertices whose virtual dependencies changed are marked again without their dependents (eval.rs 21262-21268), so
the second pass leaves the dependents with the value of the first. -/

/-- `=INDIRECT(A1)`, where A1 holds the number of a vertex. -/
def indirect : Formula Nat :=
  { deps := [0]
    ranges := []
    hasRange := false
    volatile := true
    dynamic := true
    sem := fun _ σ => σ (σ 0)
    cells := fun σ => [0, σ 0]
    areas := fun _ => [] }

/-- D1 (3); A1 (0) = D1 + 4; B1 (1) = INDIRECT(A1); C1 (2) = B1 + 1; cell 4 holds 7; cell 7 = D1, cell 6 = cell 7,
cell 5 = cell 6 + 100. With D1 = 0, B1 shows cell 4. Then D1 becomes 1, and B1 shows cell 5. -/
def replan : Option (Engine Nat) :=
  run start [.value 3 0, .value 4 7, .formula false 7 (plus [3] 0) 0, .formula false 6 (plus [7] 0) 0,
    .formula false 5 (plus [6] 100) 0, .formula false 0 (plus [3] 4) 0, .formula false 1 indirect 0,
    .formula false 2 (plus [1] 1) 0, .all plain 1, .value 3 1, .all plain 2]

/-- **C48 fails** with computed references: after `evaluate_all`, B1 shows 101, and C1 = B1 + 1 shows 101. The next
recalculation repairs it. -/
theorem replan_wrong :
    vals replan [0, 5, 1, 2] = some [5, 101, 101, 101] ∧
    vals (replan.bind fun e => run e [.all plain 3]) [0, 5, 1, 2] = some [5, 101, 101, 102] := by
  refine ⟨by decide +kernel, by decide +kernel⟩

theorem indirect_fits (b : Book Nat) (v : Nat) : indirect.Fits b v := by
  refine ⟨by simp [indirect], ?_, by simp [indirect], fun _ => rfl, fun _ => rfl, by simp [indirect], by simp [indirect]⟩
  intro clock σ τ h
  have hb : (b.setFormula v indirect).body v = indirect := upd_same _ _ _
  have hd : (b.setFormula v indirect).dynamic v = true := upd_same _ _ _
  have h0 : τ 0 = σ 0 := h 0 (.direct (Or.inl (by rw [hb]; simp [indirect])))
  have h1 : τ (σ 0) = σ (σ 0) := h _ (.direct (Or.inr (Or.inr ⟨hd, Or.inl (by rw [hb]; simp [indirect])⟩)))
  show τ (τ 0) = σ (σ 0)
  rw [h0, h1]

/-- A1 = 2, C1 = A1 + 5, B1 = INDIRECT(A1). -/
def steady : Engine Nat :=
  markTopology (putFormula (markTopology (putFormula (setValue start 0 2) 2 (plus [0] 5) 0)) 1 indirect 0)

theorem steady_inv : Inv steady := by
  have h0 := setValue_inv start_inv (v := 0) (by decide) 2
  have h1 : Inv (markTopology (putFormula (setValue start 0 2) 2 (plus [0] 5) 0)) :=
    setFormula_inv (bulk := false) h0 (v := 2) (f := plus [0] 5) (old := 0) (by decide) (plus_fits _ _ _ _ (by simp)) rfl
  exact setFormula_inv (bulk := false) h1 (v := 1) (f := indirect) (old := 0) (by decide) (indirect_fits _ _) rfl

def steadySchedule : Schedule × Sched.VDeps :=
  match schedule plain { steady with clock := 1 } (candidates { steady with clock := 1 }) with
  | .ok (s, vd, _) => (s, vd)
  | _ => (⟨[], [], []⟩, fun _ => [])

/-- The hypotheses of `evaluateAll_dynamic_partial` are met by this workbook. -/
example : ∃ e', evaluateAll plain 1 steady = .done e' ∧ e'.book = steady.book ∧ e'.clock = 1 ∧
    steady.book.Recalculated 1 steady.store e'.store ∧ Inv e' := by
  refine evaluateAll_dynamic_partial plain_fair steady_inv 1 ?_
  rintro s vd ⟨k, hk⟩
  have hs : steadySchedule = (s, vd) := by rw [steadySchedule, hk]
  have h1 : s = steadySchedule.1 := by rw [hs]
  have h2 : vd = steadySchedule.2 := by rw [hs]
  subst h1 h2
  refine ⟨by decide +kernel, ?_⟩
  intro v hv
  have hv1 : v = 1 := by
    by_contra h
    have hb : steady.book = (((start.book.setValue 0).setFormula 2 (plus [0] 5)).setFormula 1 indirect) := rfl
    rw [hb] at hv
    have hv' : upd (upd (fun _ => false) 2 false) 1 true v = true := hv
    rw [upd_ne _ _ h] at hv'
    by_cases h2 : v = 2 <;> simp [upd, h2] at hv'
  subst hv1
  decide +kernel

/-! ## A computed reference to its own cell

The collector leaves out the cell being evaluated (virtual_deps.rs 452), so the cycle is not seen. -/

/-- **C48 fails** too when A1 = 1 makes B1 = INDIRECT(A1) a reference to B1 itself: B1 shows 0, not the error. -/
theorem self_indirect_wrong :
    vals (run start [.value 0 1, .formula false 1 indirect 0, .all plain 1]) [0, 1] = some [1, 0] ∧
    ∀ e, run start [.value 0 1, .formula false 1 indirect 0, .all plain 1] = some e → e.store 0 = 1 →
      1 ∈ indirect.cells e.store := by
  refine ⟨by decide +kernel, ?_⟩
  intro e _ h
  simp [indirect, h]

/-! ## A name whose formula is volatile

Only cells are ever marked volatile (graph/mod.rs 963, 987, 2297, 3084), so a name defined as `=NOW()` keeps its first
value. -/

/-- 0 is the name, defined as the clock; A1 (vertex 1) refers to it. -/
def clockBook : Book Nat :=
  { vertices := [0, 1]
    kind := fun v => if v = 0 then .name else if v = 1 then .formula else .value
    body := fun v =>
      if v = 0 then { plus [] 0 with sem := fun now _ => now } else if v = 1 then plus [0] 0 else .empty
    volatile := []
    dynamic := fun _ => false
    circ := 999 }

/-- **C49 fails** for such names: recalculated at time 8, the name and the cell show time 7. -/
theorem volatile_name_wrong :
    vals (run (fresh clockBook fun _ => 0) [.all plain 7, .all plain 8]) [0, 1] = some [7, 7] := by decide +kernel

/-! ## A name on a cycle, and targets

`build_demand_subgraph` schedules clean names but not the clean formulas of their cycle. -/

/-- Vertex 0 is a name defined as IFERROR(A1, 0); A1 (vertex 1) is the name. -/
def cycleBook : Book Nat :=
  { vertices := [0, 1]
    kind := fun v => if v = 0 then .name else if v = 1 then .formula else .value
    body := fun v =>
      if v = 0 then { plus [1] 0 with sem := fun _ σ => if σ 1 = 999 then 0 else σ 1 }
      else if v = 1 then plus [0] 0 else .empty
    volatile := []
    dynamic := fun _ => false
    circ := 999 }

/-- **C46 fails** for targets on such a cycle: the name showed the error, and shows 0 after its cell was evaluated. -/
theorem name_cycle_wrong :
    vals (run (fresh cycleBook fun _ => 0) [.all plain 7]) [0, 1] = some [999, 999] ∧
    vals (run (fresh cycleBook fun _ => 0) [.all plain 7, .targets plain 8 [1]]) [0, 1] = some [0, 999] := by
  refine ⟨by decide +kernel, by decide +kernel⟩

end Verif.Recalc

import Verif.Recalc.Model
import Verif.Sched.Props
import Mathlib.Tactic.ByContra

/-!
# Running a schedule

The three ways to evaluate a layer agree on what matters: a vertex outside the layer keeps its value, and a vertex of the
layer gets the value of its formula on values that are those from before the layer, except perhaps on the layer itself.
-/

namespace Verif.Recalc

open Verif.Sched (upd sortNat dedupSorted Schedule Orders Valid)

variable {α : Type}

theorem upd_same (σ : Nat → α) (v : Nat) (a : α) : upd σ v a v = a := by simp [upd]

theorem upd_ne (σ : Nat → α) {v w : Nat} (a : α) (h : w ≠ v) : upd σ v a w = σ w := by simp [upd, h]

/-! ## Writes -/

theorem flush_out (buf : List (Nat × α)) (σ : Nat → α) (w : Nat) (h : w ∉ buf.map Prod.fst) : flush buf σ w = σ w := by
  induction buf generalizing σ with
  | nil => rfl
  | cons p buf ih =>
    simp only [List.map_cons, List.mem_cons, not_or] at h
    show flush buf (upd σ p.1 p.2) w = σ w
    rw [ih _ h.2, upd_ne _ _ h.1]

theorem flush_in (buf : List (Nat × α)) (σ : Nat → α) (hn : (buf.map Prod.fst).Nodup) (p : Nat × α) (h : p ∈ buf) :
    flush buf σ p.1 = p.2 := by
  induction buf generalizing σ with
  | nil => simp at h
  | cons q buf ih =>
    simp only [List.map_cons, List.nodup_cons] at hn
    show flush buf (upd σ q.1 q.2) p.1 = p.2
    rcases List.mem_cons.1 h with rfl | h
    · rw [flush_out _ _ _ hn.1, upd_same]
    · exact ih _ hn.2 h

theorem flush_append (a b : List (Nat × α)) (σ : Nat → α) : flush (a ++ b) σ = flush b (flush a σ) := by
  simp [flush, List.foldl_append]

/-! ## Layers -/

/-- What evaluating a layer achieves. -/
structure Evald (b : Book α) (clock : Nat) (layer : List Nat) (σ σ' : Nat → α) : Prop where
  out : ∀ v, v ∉ layer → σ' v = σ v
  val : ∀ v ∈ layer, ∃ τ : Nat → α, (∀ x, x ∉ layer → τ x = σ x) ∧ σ' v = evalV b clock v τ

theorem runDirect_out (b : Book α) (clock : Nat) (l : List Nat) (σ : Nat → α) (w : Nat) (h : w ∉ l) :
    runDirect b clock l σ w = σ w := by
  induction l generalizing σ with
  | nil => rfl
  | cons v l ih =>
    simp only [List.mem_cons, not_or] at h
    show runDirect b clock l (upd σ v _) w = σ w
    rw [ih _ h.2, upd_ne _ _ h.1]

theorem runDirect_evald (b : Book α) (clock : Nat) (l : List Nat) (σ : Nat → α) (hn : l.Nodup) :
    Evald b clock l σ (runDirect b clock l σ) := by
  refine ⟨fun v h => runDirect_out b clock l σ v h, ?_⟩
  induction l generalizing σ with
  | nil => simp
  | cons u l ih =>
    rw [List.nodup_cons] at hn
    intro v hv
    have hrw : runDirect b clock (u :: l) σ = runDirect b clock l (upd σ u (evalV b clock u σ)) := rfl
    rw [hrw]
    rcases List.mem_cons.1 hv with rfl | hv
    · refine ⟨σ, fun _ _ => rfl, ?_⟩
      rw [runDirect_out _ _ _ _ _ hn.1, upd_same]
    · obtain ⟨τ, h1, h2⟩ := ih (upd σ u (evalV b clock u σ)) hn.2 v hv
      refine ⟨τ, fun x hx => ?_, h2⟩
      simp only [List.mem_cons, not_or] at hx
      rw [h1 x hx.2, upd_ne _ _ hx.1]

/-- The state of the buffered walk. -/
abbrev BState (α : Type) := (Nat → α) × List (Nat × α)

def bStep (b : Book α) (clock : Nat) (st : BState α) (v : Nat) : BState α :=
  let st := if (b.body v).hasRange then (flush st.2 st.1, []) else st
  (st.1, st.2 ++ [(v, evalV b clock v st.1)])

theorem runBuffered_evald (b : Book α) (clock : Nat) (l : List Nat) (σ : Nat → α) (hn : l.Nodup) :
    Evald b clock l σ (runBuffered b clock l σ) := by
  have key : ∀ (pre post : List Nat) (st : BState α), pre ++ post = l →
      ((st.2.map Prod.fst).Nodup ∧ (∀ p ∈ st.2, p.1 ∈ pre) ∧ (∀ x, x ∉ pre → st.1 x = σ x) ∧
        ∀ v ∈ pre, ∃ τ : Nat → α, (∀ x, x ∉ l → τ x = σ x) ∧ flush st.2 st.1 v = evalV b clock v τ) →
      let r := post.foldl (bStep b clock) st
      ((r.2.map Prod.fst).Nodup ∧ (∀ p ∈ r.2, p.1 ∈ l) ∧ (∀ x, x ∉ l → r.1 x = σ x) ∧
        ∀ v ∈ l, ∃ τ : Nat → α, (∀ x, x ∉ l → τ x = σ x) ∧ flush r.2 r.1 v = evalV b clock v τ) := by
    intro pre post
    induction post generalizing pre with
    | nil =>
      intro st he hi
      rw [List.append_nil] at he
      subst he
      exact hi
    | cons u post ih =>
      intro st he hi
      rw [List.foldl_cons]
      have hu : u ∉ pre := by
        rw [← he, List.nodup_append] at hn
        intro hu
        exact hn.2.2 u hu u (by simp) rfl
      refine ih (pre ++ [u]) (bStep b clock st u) (by simp [he]) ?_
      obtain ⟨h1, h2, h3, h4⟩ := hi
      -- the state after a possible flush
      have hfl : ∀ st' : BState α, (st'.2.map Prod.fst).Nodup → (∀ p ∈ st'.2, p.1 ∈ pre) →
          (∀ x, x ∉ pre → st'.1 x = σ x) →
          (∀ v ∈ pre, ∃ τ : Nat → α, (∀ x, x ∉ l → τ x = σ x) ∧ flush st'.2 st'.1 v = evalV b clock v τ) →
          (((st'.1, st'.2 ++ [(u, evalV b clock u st'.1)]) : BState α).2.map Prod.fst).Nodup ∧
          (∀ p ∈ st'.2 ++ [(u, evalV b clock u st'.1)], p.1 ∈ pre ++ [u]) ∧
          (∀ x, x ∉ pre ++ [u] → st'.1 x = σ x) ∧
          ∀ v ∈ pre ++ [u], ∃ τ : Nat → α, (∀ x, x ∉ l → τ x = σ x) ∧
            flush (st'.2 ++ [(u, evalV b clock u st'.1)]) st'.1 v = evalV b clock v τ := by
        intro st' g1 g2 g3 g4
        have hus : u ∉ st'.2.map Prod.fst := by
          intro h
          obtain ⟨p, hp, rfl⟩ := List.mem_map.1 h
          exact hu (g2 p hp)
        refine ⟨?_, ?_, ?_, ?_⟩
        · simp only [List.map_append, List.map_cons, List.map_nil]
          rw [List.nodup_append]
          refine ⟨g1, by simp, ?_⟩
          intro a ha c hc e
          simp only [List.mem_singleton] at hc
          subst hc; subst e
          exact hus ha
        · intro p hp
          rcases List.mem_append.1 hp with hp | hp
          · exact List.mem_append.2 (Or.inl (g2 p hp))
          · simp only [List.mem_singleton] at hp
            subst hp
            simp
        · intro x hx
          exact g3 x fun h => hx (List.mem_append.2 (Or.inl h))
        · intro v hv
          have hlast : ∀ w, flush (st'.2 ++ [(u, evalV b clock u st'.1)]) st'.1 w =
              upd (flush st'.2 st'.1) u (evalV b clock u st'.1) w := by
            intro w
            rw [flush_append]
            rfl
          rcases List.mem_append.1 hv with hv1 | hv
          · obtain ⟨τ, t1, t2⟩ := g4 v hv1
            refine ⟨τ, t1, ?_⟩
            rw [hlast, upd_ne _ _ (by intro e; subst e; exact hu hv1), t2]
          · simp only [List.mem_singleton] at hv
            subst hv
            refine ⟨st'.1, fun x hx => g3 x ?_, ?_⟩
            · intro h
              exact hx (he ▸ List.mem_append.2 (Or.inl h))
            · rw [hlast, upd_same]
      unfold bStep
      simp only
      split
      · refine hfl (flush st.2 st.1, []) (by simp) (by simp) ?_ ?_
        · intro x hx
          show flush st.2 st.1 x = σ x
          rw [flush_out, h3 x hx]
          intro h
          obtain ⟨p, hp, rfl⟩ := List.mem_map.1 h
          exact hx (h2 p hp)
        · exact h4
      · exact hfl st h1 h2 h3 h4
  obtain ⟨-, r2, r3, r4⟩ := key [] l (σ, []) (by simp) ⟨by simp, by simp, by simp, by simp⟩
  refine ⟨?_, ?_⟩
  · intro v hv
    show flush (l.foldl (bStep b clock) (σ, [])).2 (l.foldl (bStep b clock) (σ, [])).1 v = σ v
    rw [flush_out, r3 v hv]
    intro h
    obtain ⟨p, hp, rfl⟩ := List.mem_map.1 h
    exact hv (r2 p hp)
  · exact r4

theorem runGroup_out (b : Book α) (clock : Nat) (g : List Nat) (σ : Nat → α) (w : Nat) (h : w ∉ g) :
    runGroup b clock g σ w = σ w := by
  unfold runGroup
  rw [flush_out]
  simpa using h

theorem runGroup_in (b : Book α) (clock : Nat) (g : List Nat) (σ : Nat → α) (hn : g.Nodup) (v : Nat) (h : v ∈ g) :
    runGroup b clock g σ v = evalV b clock v σ := by
  unfold runGroup
  refine flush_in _ σ (by simpa [List.map_map, Function.comp_def] using hn) (v, evalV b clock v σ) ?_
  exact List.mem_map.2 ⟨v, h, rfl⟩

theorem runParallel_evald (b : Book α) (clock : Nat) (l : List Nat) (σ : Nat → α) (hn : l.Nodup) :
    Evald b clock l σ (runParallel b clock l σ) := by
  unfold runParallel
  refine ⟨?_, ?_⟩
  · intro v hv
    rw [runGroup_out, runGroup_out]
    · exact fun h => hv (List.mem_filter.1 h).1
    · exact fun h => hv (List.mem_filter.1 h).1
  · intro v hv
    cases hr : (b.body v).hasRange with
    | true =>
      refine ⟨_, ?_, runGroup_in b clock _ _ (hn.filter _) v (List.mem_filter.2 ⟨hv, by simp [hr]⟩)⟩
      intro x hx
      exact runGroup_out _ _ _ _ _ fun h => hx (List.mem_filter.1 h).1
    | false =>
      refine ⟨σ, fun _ _ => rfl, ?_⟩
      rw [runGroup_out _ _ _ _ _ (by simp [hr]),
        runGroup_in b clock _ _ (hn.filter _) v (List.mem_filter.2 ⟨hv, by simp [hr]⟩)]

/-- C18: however a layer is evaluated, the outcome meets the same description. -/
theorem runLayer_evald (c : Config) (b : Book α) (clock : Nat) (l : List Nat) (σ : Nat → α) (hn : l.Nodup) :
    Evald b clock l σ (runLayer c b clock l σ) := by
  unfold runLayer
  split
  · exact runParallel_evald b clock l σ hn
  · split
    · exact runDirect_evald b clock l σ hn
    · exact runBuffered_evald b clock l σ hn

theorem stamp_out (b : Book α) (l : List Nat) (σ : Nat → α) (w : Nat) (h : w ∉ l) : stampCycle b l σ w = σ w := by
  induction l generalizing σ with
  | nil => rfl
  | cons v l ih =>
    simp only [List.mem_cons, not_or] at h
    show stampCycle b l (upd σ v b.circ) w = σ w
    rw [ih _ h.2, upd_ne _ _ h.1]

theorem stamp_in (b : Book α) (l : List Nat) (σ : Nat → α) (w : Nat) (h : w ∈ l) : stampCycle b l σ w = b.circ := by
  induction l generalizing σ with
  | nil => simp at h
  | cons v l ih =>
    show stampCycle b l (upd σ v b.circ) w = b.circ
    by_cases hw : w ∈ l
    · exact ih _ hw
    · rcases List.mem_cons.1 h with rfl | h
      · rw [stamp_out _ _ _ _ hw, upd_same]
      · exact absurd h hw

/-! ## The whole schedule -/

def runSteps (c : Config) (b : Book α) (clock : Nat) (steps : List (Bool × List Nat)) (σ : Nat → α) : Nat → α :=
  steps.foldl (runStep c b clock) σ

theorem runStep_out (c : Config) (b : Book α) (clock : Nat) (u : Bool × List Nat) (σ : Nat → α) (hn : u.2.Nodup) (w : Nat)
    (h : w ∉ u.2) : runStep c b clock σ u w = σ w := by
  unfold runStep
  split
  · exact stamp_out b _ σ w h
  · exact (runLayer_evald c b clock u.2 σ hn).out w h

theorem runSteps_out (c : Config) (b : Book α) (clock : Nat) (steps : List (Bool × List Nat)) (σ : Nat → α)
    (hn : (steps.flatMap Prod.snd).Nodup) (w : Nat) (h : w ∉ steps.flatMap Prod.snd) :
    runSteps c b clock steps σ w = σ w := by
  induction steps generalizing σ with
  | nil => rfl
  | cons u steps ih =>
    rw [List.flatMap_cons, List.nodup_append] at hn
    rw [List.flatMap_cons, List.mem_append, not_or] at h
    show runSteps c b clock steps (runStep c b clock σ u) w = σ w
    rw [ih _ hn.2.1 h.2, runStep_out c b clock u σ hn.1 w h.1]

/-- Every vertex of a layer shows, at the end of the run, the value of its formula on the final values, provided
what it reads is either left alone by the run or evaluated in an earlier step. `R` lists what the formula reads. -/
theorem runSteps_layer (c : Config) (b : Book α) (clock : Nat) (steps pre post : List (Bool × List Nat)) (l : List Nat)
    (σ : Nat → α) (hn : (steps.flatMap Prod.snd).Nodup) (hs : steps = pre ++ (false, l) :: post) (v : Nat) (hv : v ∈ l)
    (R : Nat → Prop)
    (hR : ∀ d, R d → d ∈ pre.flatMap Prod.snd ∨ d ∉ steps.flatMap Prod.snd)
    (hc : ∀ τ : Nat → α, (∀ d, R d → τ d = runSteps c b clock steps σ d) →
      evalV b clock v τ = evalV b clock v (runSteps c b clock steps σ)) :
    runSteps c b clock steps σ v = evalV b clock v (runSteps c b clock steps σ) := by
  subst hs
  have hn' := hn
  rw [List.flatMap_append, List.flatMap_cons, List.nodup_append, List.nodup_append] at hn'
  obtain ⟨n1, ⟨n2, n3, n4⟩, n5⟩ := hn'
  have e1 : runSteps c b clock (pre ++ (false, l) :: post) σ =
      runSteps c b clock post (runLayer c b clock l (runSteps c b clock pre σ)) := by
    simp [runSteps, List.foldl_append, runStep]
  have hvp : v ∉ post.flatMap Prod.snd := fun h => n4 v hv v h rfl
  obtain ⟨τ, t1, t2⟩ := (runLayer_evald c b clock l (runSteps c b clock pre σ) n2).val v hv
  have h1 : runSteps c b clock (pre ++ (false, l) :: post) σ v = evalV b clock v τ := by
    rw [e1, runSteps_out c b clock post _ n3 v hvp, t2]
  rw [h1]
  refine hc τ ?_
  intro d hd
  have hdl : d ∉ l := by
    intro hl
    rcases hR d hd with h | h
    · exact n5 d h d (List.mem_append.2 (Or.inl hl)) rfl
    · exact h (by simp [hl])
  have hdp : d ∉ post.flatMap Prod.snd := by
    intro hl
    rcases hR d hd with h | h
    · exact n5 d h d (List.mem_append.2 (Or.inr hl)) rfl
    · exact h (by rw [List.flatMap_append, List.flatMap_cons]; exact List.mem_append.2 (Or.inr (List.mem_append.2 (Or.inr hl))))
  rw [t1 d hdl, e1, runSteps_out c b clock post _ n3 d hdp, (runLayer_evald c b clock l _ n2).out d hdl]

/-- The vertices of a cycle step show the error at the end. -/
theorem runSteps_cycle (c : Config) (b : Book α) (clock : Nat) (steps : List (Bool × List Nat)) (l : List Nat)
    (σ : Nat → α) (hn : (steps.flatMap Prod.snd).Nodup) (hs : (true, l) ∈ steps) (v : Nat) (hv : v ∈ l) :
    runSteps c b clock steps σ v = b.circ := by
  obtain ⟨pre, post, rfl⟩ := List.append_of_mem hs
  rw [List.flatMap_append, List.flatMap_cons, List.nodup_append, List.nodup_append] at hn
  obtain ⟨-, ⟨-, n3, n4⟩, -⟩ := hn
  have e1 : runSteps c b clock (pre ++ (true, l) :: post) σ =
      runSteps c b clock post (stampCycle b l (runSteps c b clock pre σ)) := by
    simp [runSteps, List.foldl_append, runStep]
  rw [e1, runSteps_out c b clock post _ n3 v fun h => n4 v hv v h rfl, stamp_in b l _ v hv]

end Verif.Recalc

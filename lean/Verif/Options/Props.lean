import Verif.Rng.Props

/-!
# Options of one evaluation

`SheetPort::evaluate_once` and `evaluate_with_plan` change the engine for one evaluation and put it
back: `/repo/crates/formualizer-sheetport/src/runtime.rs`.
-/

namespace Verif.Options

open Verif.Rng (Word Level Site)

variable {Mode Budgets Clock : Type} [DecidableEq Mode] [DecidableEq Budgets]

/-- The part of the engine the options touch, and `rest`, everything else.  The clock is its source
(`SnapshotClock::new` wraps it, engine/eval.rs 3895); budgets are kept in three places, always set
together (engine/eval.rs 2984-2988). -/
structure Engine (Mode Budgets Clock Rest : Type) where
  seed : Word
  level : Level
  mode : Mode
  budgets : Budgets
  clock : Clock
  rest : Rest

variable {Rest : Type}

/-- `EvalOptions` without `mode`, `cancel`, `deadline` and `opaque_policy`, which are handed to the
evaluation: runtime.rs 67-76. -/
structure Opts (Mode Budgets : Type) where
  freeze : Bool
  seed : Option Word
  mode : Option Mode
  budgets : Option Budgets

/-- What comes from elsewhere: `DeterministicMode::build_clock` (engine/mod.rs 591-619), which fails
on times out of range, and whether budgets ask for no threads at all. -/
structure Env (Mode Budgets Clock : Type) where
  build : Mode → Option Clock
  noThreads : Budgets → Bool

/-- `Engine::set_deterministic_mode`: engine/eval.rs 3889-3897. -/
def setMode (E : Env Mode Budgets Clock) (e : Engine Mode Budgets Clock Rest) (m : Mode) :
    Option (Engine Mode Budgets Clock Rest) :=
  match E.build m with
  | none => none
  | some c => some { e with mode := m, clock := c }

/-- `Engine::set_clock`: engine/eval.rs 3906-3908. -/
def setClock (e : Engine Mode Budgets Clock Rest) (c : Clock) : Engine Mode Budgets Clock Rest :=
  { e with clock := c }

/-- `EvalConfigRestore`: runtime.rs 1400-1409. -/
structure Restore (Mode Budgets : Type) where
  seed : Word
  level : Level
  mode : Mode
  budgets : Budgets
  seedSet : Bool
  levelSet : Bool
  modeSet : Bool
  budgetsSet : Bool

/-- `apply_eval_options`: runtime.rs 1427-1487; the engine afterwards, and, unless it failed, what to
restore. -/
def apply (E : Env Mode Budgets Clock) (e : Engine Mode Budgets Clock Rest) (o : Opts Mode Budgets) :
    Engine Mode Budgets Clock Rest × Option (Restore Mode Budgets) :=
  if (o.budgets.map E.noThreads) = some true then (e, none)
  else
    let step : Option (Engine Mode Budgets Clock Rest × Bool) :=
      match o.mode with
      | none => some (e, false)
      | some m =>
        if m = e.mode then some (e, false)
        else match setMode E e m with
          | none => none
          | some e' => some (e', true)
    match step with
    | none => (e, none)
    | some (e1, modeSet) =>
      let b := o.budgets.getD e.budgets
      let e2 := if b ≠ e.budgets then { e1 with budgets := b } else e1
      let s := o.seed.getD e.seed
      let e3 := if s ≠ e.seed then { e2 with seed := s } else e2
      let frozen := o.freeze && e.level ≠ .onOpen
      let e4 := if frozen = true then { e3 with level := .onOpen } else e3
      (e4, some ⟨e.seed, e.level, e.mode, e.budgets, s ≠ e.seed, frozen, modeSet, b ≠ e.budgets⟩)

/-- `restore_eval_options`: runtime.rs 1489-1512. A clock that cannot be built is ignored. -/
def restore (E : Env Mode Budgets Clock) (e : Engine Mode Budgets Clock Rest)
    (r : Restore Mode Budgets) : Engine Mode Budgets Clock Rest :=
  let e := if r.seedSet then { e with seed := r.seed } else e
  let e := if r.levelSet then { e with level := r.level } else e
  let e := if r.modeSet then (setMode E e r.mode).getD e else e
  if r.budgetsSet then { e with budgets := r.budgets } else e

/-- `evaluate_once` around what it does with the workbook, which may fail: runtime.rs 292-317.  The
evaluation is a function on the rest of the engine that can see the options. -/
def once {Out : Type} (E : Env Mode Budgets Clock)
    (run : Engine Mode Budgets Clock Rest → Rest × Option Out)
    (e : Engine Mode Budgets Clock Rest) (o : Opts Mode Budgets) :
    Engine Mode Budgets Clock Rest × Option Out :=
  match apply E e o with
  | (e1, none) => (e1, none)
  | (e1, some r) =>
    let (rest, out) := run e1
    (restore E { e1 with rest := rest } r, out)

/-! ## Putting the engine back -/

/-- **C116.** If the engine's clock is the clock of its mode, one evaluation leaves the seed, the
level, the mode, the budgets and the clock as they were, whether it succeeds, fails or is refused. -/
theorem once_restores_partial {Out : Type} (E : Env Mode Budgets Clock)
    (run : Engine Mode Budgets Clock Rest → Rest × Option Out)
    (e : Engine Mode Budgets Clock Rest) (o : Opts Mode Budgets)
    (hc : E.build e.mode = some e.clock) :
    ∃ rest, (once E run e o).1 = { e with rest := rest } := by
  obtain ⟨seed, level, mode, budgets, clock, rest0⟩ := e
  simp only at hc
  unfold once apply
  by_cases h0 : (o.budgets.map E.noThreads) = some true
  · rw [if_pos h0]; exact ⟨rest0, rfl⟩
  · rw [if_neg h0]
    have fin : ∀ (m1 : Mode) (c1 : Clock) (ms : Bool), (ms = false → m1 = mode ∧ c1 = clock) →
        ∀ (b : Budgets) (s : Word) (fz : Bool) (rest : Rest),
        restore E
          { (if fz = true then
              ({ (if s ≠ seed then
                    ({ (if b ≠ budgets then (⟨seed, level, m1, b, c1, rest0⟩ : Engine Mode Budgets Clock Rest)
                        else ⟨seed, level, m1, budgets, c1, rest0⟩) with seed := s } :
                      Engine Mode Budgets Clock Rest)
                  else (if b ≠ budgets then ⟨seed, level, m1, b, c1, rest0⟩
                        else ⟨seed, level, m1, budgets, c1, rest0⟩)) with level := Level.onOpen } :
                Engine Mode Budgets Clock Rest)
            else (if s ≠ seed then
                    ({ (if b ≠ budgets then (⟨seed, level, m1, b, c1, rest0⟩ : Engine Mode Budgets Clock Rest)
                        else ⟨seed, level, m1, budgets, c1, rest0⟩) with seed := s } :
                      Engine Mode Budgets Clock Rest)
                  else (if b ≠ budgets then ⟨seed, level, m1, b, c1, rest0⟩
                        else ⟨seed, level, m1, budgets, c1, rest0⟩))) with rest := rest }
          ⟨seed, level, mode, budgets, s ≠ seed, fz, ms, b ≠ budgets⟩ =
        ⟨seed, level, mode, budgets, clock, rest⟩ := by
      intro m1 c1 ms hms b s fz rest
      unfold restore setMode
      cases ms with
      | false =>
        obtain ⟨rfl, rfl⟩ := hms rfl
        by_cases hb : b = budgets <;> by_cases hs : s = seed <;> cases fz <;> simp [hb, hs]
      | true =>
        by_cases hb : b = budgets <;> by_cases hs : s = seed <;> cases fz <;> simp [hb, hs, hc]
    cases hm : o.mode with
    | none =>
      simp only
      exact ⟨_, fin mode clock false (fun _ => ⟨rfl, rfl⟩) _ _ _ _⟩
    | some m =>
      simp only
      by_cases hmm : m = mode
      · rw [if_pos hmm]
        simp only
        exact ⟨_, fin mode clock false (fun _ => ⟨rfl, rfl⟩) _ _ _ _⟩
      · rw [if_neg hmm]
        cases hb : E.build m with
        | none => simp only [setMode, hb]; exact ⟨rest0, rfl⟩
        | some c =>
          simp only [setMode, hb]
          exact ⟨_, fin m c true (by simp) _ _ _ _⟩

/-- An engine with a fixed clock, evaluated once with another mode and seed. -/
example : (once (Rest := Nat) (⟨fun n : Nat => some n, fun _ : Nat => false⟩)
      (fun e => (e.rest + 1, some e.clock)) ⟨7, .always, 3, 0, 3, 0⟩ ⟨true, some 8, some 5, some 1⟩) =
    (⟨7, .always, 3, 0, 3, 1⟩, some 5) := rfl

/-- **C116.** What an evaluation sees: the options that are given, and the engine's own where none
are. -/
theorem apply_sees (E : Env Mode Budgets Clock) (e e1 : Engine Mode Budgets Clock Rest)
    (o : Opts Mode Budgets) (r : Restore Mode Budgets) (h : apply E e o = (e1, some r)) :
    e1.seed = o.seed.getD e.seed ∧ e1.level = (if o.freeze then .onOpen else e.level) ∧
      e1.mode = o.mode.getD e.mode ∧ e1.budgets = o.budgets.getD e.budgets ∧ e1.rest = e.rest ∧
      (e1.mode = e.mode → e1.clock = e.clock) ∧
      (e1.mode ≠ e.mode → E.build e1.mode = some e1.clock) := by
  obtain ⟨seed, level, mode, budgets, clock, rest0⟩ := e
  unfold apply at h
  split at h
  · simp at h
  simp only at h
  have fin : ∀ (m1 : Mode) (c1 : Clock) (ms : Bool),
      (let b := o.budgets.getD budgets
       let e2 : Engine Mode Budgets Clock Rest :=
         if b ≠ budgets then ⟨seed, level, m1, b, c1, rest0⟩ else ⟨seed, level, m1, budgets, c1, rest0⟩
       let s := o.seed.getD seed
       let e3 := if s ≠ seed then { e2 with seed := s } else e2
       let frozen := o.freeze && level ≠ .onOpen
       let e4 := if frozen = true then { e3 with level := .onOpen } else e3
       (e4, some (⟨seed, level, mode, budgets, s ≠ seed, frozen, ms, b ≠ budgets⟩ :
         Restore Mode Budgets))) = (e1, some r) →
      e1.seed = o.seed.getD seed ∧ e1.level = (if o.freeze then .onOpen else level) ∧
        e1.mode = m1 ∧ e1.budgets = o.budgets.getD budgets ∧ e1.rest = rest0 ∧ e1.clock = c1 := by
    intro m1 c1 ms heq
    simp only [Prod.mk.injEq] at heq
    obtain ⟨rfl, _⟩ := heq
    by_cases hb : o.budgets.getD budgets = budgets <;> by_cases hs : o.seed.getD seed = seed <;>
      cases hf : o.freeze <;> by_cases hl : level = .onOpen <;> simp [hb, hs, hl]
  cases hm : o.mode with
  | none =>
    rw [hm] at h
    obtain ⟨h1, h2, h3, h4, h5, h6⟩ := fin mode clock false h
    exact ⟨h1, h2, h3, h4, h5, fun _ => h6, fun hn => absurd h3 hn⟩
  | some m =>
    rw [hm] at h
    simp only at h
    by_cases hmm : m = mode
    · rw [if_pos hmm] at h
      obtain ⟨h1, h2, h3, h4, h5, h6⟩ := fin mode clock false h
      exact ⟨h1, h2, h3.trans hmm.symm, h4, h5, fun _ => h6, fun hn => absurd h3 hn⟩
    · rw [if_neg hmm] at h
      cases hb : E.build m with
      | none => simp [setMode, hb] at h
      | some c =>
        simp only [setMode, hb] at h
        obtain ⟨h1, h2, h3, h4, h5, h6⟩ := fin m c true h
        refine ⟨h1, h2, h3, h4, h5, fun hn => absurd (h3.symm.trans hn) hmm, fun _ => ?_⟩
        rw [h3, h6, hb]

/-- **C116.** Options are refused exactly if the budgets ask for no threads or a new mode has no
clock, and then the engine is left as it was. -/
theorem apply_refuses (E : Env Mode Budgets Clock) (e : Engine Mode Budgets Clock Rest)
    (o : Opts Mode Budgets) :
    ((apply E e o).2 = none ↔ (∃ b, o.budgets = some b ∧ E.noThreads b = true) ∨
        ∃ m, o.mode = some m ∧ m ≠ e.mode ∧ E.build m = none) ∧
      ((apply E e o).2 = none → (apply E e o).1 = e) := by
  have hb : (o.budgets.map E.noThreads) = some true ↔
      ∃ b, o.budgets = some b ∧ E.noThreads b = true := by simp
  unfold apply
  by_cases h0 : (o.budgets.map E.noThreads) = some true
  · rw [if_pos h0]
    exact ⟨⟨fun _ => Or.inl (hb.mp h0), fun _ => rfl⟩, fun _ => rfl⟩
  · rw [if_neg h0]
    have h0' : ¬ ∃ b, o.budgets = some b ∧ E.noThreads b = true := fun h => h0 (hb.mpr h)
    cases hm : o.mode with
    | none => simp [h0']
    | some m =>
      by_cases hmm : m = e.mode
      · simp [hmm, h0']
      · cases hbm : E.build m with
        | none => simp [setMode, hbm, hmm]
        | some c => simp [setMode, hbm, hmm, h0']

theorem restore_rest (E : Env Mode Budgets Clock) (e : Engine Mode Budgets Clock Rest)
    (r : Restore Mode Budgets) : (restore E e r).rest = e.rest := by
  unfold restore setMode
  cases hb : E.build r.mode <;> cases r.seedSet <;> cases r.levelSet <;> cases r.modeSet <;>
    cases r.budgetsSet <;> simp

/-- **C116.** One evaluation that is not refused runs in an engine with the options given and the
engine's own where none are; what it did to the rest stays, and what it gave is returned. -/
theorem once_runs {Out : Type} (E : Env Mode Budgets Clock)
    (run : Engine Mode Budgets Clock Rest → Rest × Option Out)
    (e : Engine Mode Budgets Clock Rest) (o : Opts Mode Budgets)
    (hb : ∀ b, o.budgets = some b → E.noThreads b = false)
    (hm : ∀ m, o.mode = some m → m ≠ e.mode → (E.build m).isSome) :
    ∃ e1 : Engine Mode Budgets Clock Rest, e1.seed = o.seed.getD e.seed ∧
      e1.level = (if o.freeze then .onOpen else e.level) ∧ e1.mode = o.mode.getD e.mode ∧
      e1.budgets = o.budgets.getD e.budgets ∧ e1.rest = e.rest ∧
      (once E run e o).1.rest = (run e1).1 ∧ (once E run e o).2 = (run e1).2 := by
  cases ha : apply E e o with
  | mk e1 r =>
    cases r with
    | none =>
      have h := (apply_refuses E e o).1.mp (by rw [ha])
      rcases h with ⟨b, h1, h2⟩ | ⟨m, h1, h2, h3⟩
      · rw [hb b h1] at h2
        cases h2
      · have := hm m h1 h2
        rw [h3] at this
        cases this
    | some r =>
      obtain ⟨h1, h2, h3, h4, h5, _⟩ := apply_sees E e e1 o r ha
      refine ⟨e1, h1, h2, h3, h4, h5, ?_, ?_⟩
      · unfold once
        rw [ha]
        exact restore_rest E _ r
      · unfold once
        rw [ha]

/-- **C116, refuted.** A clock set by hand is not put back: after an evaluation with another mode the
engine's clock is that of its own mode. -/
theorem clock_fails {Out : Type} (E : Env Mode Budgets Clock)
    (run : Engine Mode Budgets Clock Rest → Rest × Option Out)
    (e : Engine Mode Budgets Clock Rest) (mine own other : Clock) (m : Mode)
    (hown : E.build e.mode = some own) (hother : E.build m = some other) (hm : m ≠ e.mode) :
    (setClock e mine).clock = mine ∧
      (once E run (setClock e mine) ⟨false, none, some m, none⟩).1.clock = own := by
  refine ⟨rfl, ?_⟩
  simp [once, apply, setClock, hm, setMode, hother, restore, hown]

example : (setClock (⟨7, .always, 3, 0, 3, ()⟩ : Engine Nat Nat Nat Unit) 9).clock = 9 ∧
    (once (Out := Unit) ⟨fun n : Nat => some n, fun _ : Nat => false⟩ (fun e => (e.rest, none))
      (setClock ⟨7, .always, 3, 0, 3, ()⟩ 9) ⟨false, none, some 5, none⟩).1.clock = 3 :=
  clock_fails _ _ _ 9 3 5 5 rfl rfl (by decide)

/-- **C116.** With a seed and frozen, RAND in a cell gives the same number in every engine, at every
recalculation. -/
theorem frozen_rand (g : Rng.Gen) (E : Env Mode Budgets Clock)
    (e f e1 f1 : Engine Mode Budgets Clock Rest) (o p : Opts Mode Budgets) (r q : Restore Mode Budgets)
    (s : Word) (ho : o.freeze = true ∧ o.seed = some s) (hp : p.freeze = true ∧ p.seed = some s)
    (h : apply E e o = (e1, some r)) (h' : apply E f p = (f1, some q)) (n m : Word)
    (c : Option Rng.Cell) :
    Rng.rand g ⟨e1.seed, e1.level, n, c⟩ = Rng.rand g ⟨f1.seed, f1.level, m, c⟩ := by
  obtain ⟨h1, h2, _⟩ := apply_sees E e e1 o r h
  obtain ⟨h3, h4, _⟩ := apply_sees E f f1 p q h'
  rw [ho.1] at h2
  rw [hp.1] at h4
  rw [h1, h2, h3, h4, ho.2, hp.2]
  rfl

end Verif.Options

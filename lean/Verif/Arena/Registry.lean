/-
The registry of sheets: numbers and names, through additions, removals and renamings (property C64).

Source: /repo/crates/formualizer-eval/src/engine/sheet_registry.rs, lines 8-43 and 110-180.

`lower` is `to_lowercase`, a parameter.  The hash map is a function.
-/
import Verif.Arena.AstRoom
import Mathlib.Tactic.ByContra

namespace Verif.Arena

/-- sheet_registry.rs 8-12, `SheetRegistry`. -/
structure Reg where
  ids : String → Option Nat
  names : List String

/-- sheet_registry.rs 15-17, `new`. -/
def Reg.new : Reg := ⟨fun _ => none, []⟩

/-- sheet_registry.rs 19-31, `id_for`. -/
def Reg.idFor (lower : String → String) (g : Reg) (name : String) : Reg × Nat :=
  match g.ids (lower name) with
  | some id => (g, id)
  | none =>
    let id := g.names.length % 2 ^ 16
    (⟨fun k => if k = lower name then some id else g.ids k, g.names ++ [name]⟩, id)

/-- sheet_registry.rs 33-39, `name`. -/
def Reg.name (g : Reg) (id : Nat) : String := (g.names[id]?).getD ""

/-- sheet_registry.rs 41-44, `get_id`. -/
def Reg.getId (lower : String → String) (g : Reg) (name : String) : Option Nat := g.ids (lower name)

/-- sheet_registry.rs 123-147, `remove`; `none` is the error. -/
def Reg.remove (lower : String → String) (g : Reg) (id : Nat) : Option Reg :=
  match g.names[id]? with
  | none => none
  | some name =>
    if name = "" then some g
    else some ⟨fun k => if k = lower name then none else g.ids k, g.names.set id ""⟩

/-- sheet_registry.rs 150-183, `rename`; `none` is one of the errors. -/
def Reg.rename (lower : String → String) (g : Reg) (id : Nat) (new : String) : Option Reg :=
  match g.names[id]? with
  | none => none
  | some old =>
    if (g.ids (lower new)).any (· ≠ id) then none
    else some ⟨fun k => if k = lower new then some id else if k = lower old then none else g.ids k, g.names.set id new⟩

/-- One operation. -/
inductive RegOp where
  | add (name : String)
  | remove (id : Nat)
  | rename (id : Nat) (name : String)

/-- The registry after an operation; an error leaves it as it is. -/
def Reg.step (lower : String → String) (g : Reg) : RegOp → Reg
  | .add name => (g.idFor lower name).1
  | .remove id => (g.remove lower id).getD g
  | .rename id name => (g.rename lower id name).getD g

/-- The registry after a history. -/
def Reg.run (lower : String → String) (g : Reg) (ops : List RegOp) : Reg := ops.foldl (Reg.step lower) g

/-! ### The invariant -/

/-- What `to_lowercase` does with the empty text, and nothing else. -/
def Lower (lower : String → String) : Prop := ∀ s, lower s = "" ↔ s = ""

/-- Names and numbers agree. -/
structure Reg.Ok (lower : String → String) (g : Reg) : Prop where
  found : ∀ k id, g.ids k = some id → ∃ name, g.names[id]? = some name ∧ lower name = k
  finds : ∀ id name, g.names[id]? = some name → name ≠ "" → g.ids (lower name) = some id

theorem Reg.new_ok (lower : String → String) : Reg.new.Ok lower := 
  ⟨fun _ _ h => (by cases h), fun _ _ h => (by simp [Reg.new] at h)⟩

theorem Reg.idFor_ok {lower : String → String} {g : Reg} (h : g.Ok lower) (name : String) (hn : g.names.length < 2 ^ 16) :
    (g.idFor lower name).1.Ok lower := by
  unfold Reg.idFor
  cases hid : g.ids (lower name) with
  | some id => exact h
  | none =>
    dsimp only
    rw [Nat.mod_eq_of_lt hn]
    constructor
    · intro k id hk
      dsimp only at hk ⊢
      split at hk
      · next e => cases hk; exact ⟨name, last_get _ _, e.symm⟩
      · obtain ⟨n, h1, h2⟩ := h.found k id hk
        exact ⟨n, prefix_get (List.prefix_append _ _) h1, h2⟩
    · intro id n hg hne
      dsimp only at hg ⊢
      rcases Nat.lt_trichotomy id g.names.length with hlt | rfl | hgt
      · rw [List.getElem?_append_left hlt] at hg
        have := h.finds id n hg hne
        rw [if_neg]
        · exact this
        · intro e; rw [e, hid] at this; cases this
      · rw [last_get] at hg; cases hg; rw [if_pos rfl]
      · rw [List.getElem?_eq_none (by simp; omega)] at hg; cases hg

theorem Reg.remove_ok {lower : String → String} {g g' : Reg} (h : g.Ok lower) {id : Nat} (hr : g.remove lower id = some g') : g'.Ok lower := by
  unfold Reg.remove at hr
  split at hr
  · cases hr
  · next name hn =>
    split at hr
    · cases hr; exact h
    · next hne =>
      cases hr
      have hid := h.finds id name hn hne
      have hlt := get_lt hn
      constructor
      · intro k j hk
        dsimp only at hk ⊢
        split at hk
        · cases hk
        · next hk' =>
          obtain ⟨n, h1, h2⟩ := h.found k j hk
          have : j ≠ id := by rintro rfl; rw [hn] at h1; cases h1; exact hk' h2.symm
          exact ⟨n, by rw [List.getElem?_set_ne (Ne.symm this)]; exact h1, h2⟩
      · intro j n hg hne'
        dsimp only at hg ⊢
        by_cases e : j = id
        · subst e
          rw [List.getElem?_set_self hlt] at hg
          cases hg
          exact absurd rfl hne'
        · rw [List.getElem?_set_ne (Ne.symm e)] at hg
          have := h.finds j n hg hne'
          rw [if_neg]
          · exact this
          · intro e'; rw [e', hid] at this; cases this; exact e rfl

theorem Reg.rename_ok {lower : String → String} (hl : Lower lower) {g g' : Reg} (h : g.Ok lower) {id : Nat} {new : String}
    (hr : g.rename lower id new = some g') : g'.Ok lower := by
  unfold Reg.rename at hr
  split at hr
  · cases hr
  · next old hn =>
    split at hr
    · cases hr
    · next hfree =>
      cases hr
      have hlt := get_lt hn
      have hfree : ∀ j, g.ids (lower new) = some j → j = id := by
        intro j hj
        rw [hj] at hfree
        simpa using hfree
      constructor
      · intro k j hk
        dsimp only at hk ⊢
        split at hk
        · next e => cases hk; exact ⟨new, List.getElem?_set_self hlt, e.symm⟩
        · split at hk
          · cases hk
          · next hk' =>
            obtain ⟨n, h1, h2⟩ := h.found k j hk
            have : j ≠ id := by rintro rfl; rw [hn] at h1; cases h1; exact hk' h2.symm
            exact ⟨n, by rw [List.getElem?_set_ne (Ne.symm this)]; exact h1, h2⟩
      · intro j n hg hne'
        dsimp only at hg ⊢
        by_cases e : j = id
        · subst e
          rw [List.getElem?_set_self hlt] at hg
          cases hg
          rw [if_pos rfl]
        · rw [List.getElem?_set_ne (Ne.symm e)] at hg
          have := h.finds j n hg hne'
          rw [if_neg, if_neg]
          · exact this
          · intro e'
            by_cases ho : old = ""
            · rw [ho, (hl "").2 rfl] at e'
              exact hne' ((hl n).1 e')
            · have hid := h.finds id old hn ho
              rw [e', hid] at this
              cases this
              exact e rfl
          · intro e'
            rw [e'] at this
            exact e (hfree j this)

theorem Reg.step_names {lower : String → String} (g : Reg) (op : RegOp) :
    (g.step lower op).names.length ≤ g.names.length + 1 := by
  cases op with
  | add name =>
    simp only [Reg.step, Reg.idFor]
    split <;> simp
  | remove id =>
    simp only [Reg.step, Reg.remove]
    split
    · simp
    · split <;> simp
  | rename id name =>
    simp only [Reg.step, Reg.rename]
    split
    · simp
    · split <;> simp

theorem Reg.step_ok {lower : String → String} (hl : Lower lower) {g : Reg} (h : g.Ok lower) (op : RegOp) (hn : g.names.length < 2 ^ 16) :
    (g.step lower op).Ok lower := by
  cases op with
  | add name => exact Reg.idFor_ok h name hn
  | remove id =>
    simp only [Reg.step]
    cases hr : g.remove lower id with
    | none => exact h
    | some g' => exact Reg.remove_ok h hr
  | rename id name =>
    simp only [Reg.step]
    cases hr : g.rename lower id name with
    | none => exact h
    | some g' => exact Reg.rename_ok hl h hr

/-- The invariant holds after every history of no more than 65536 operations. -/
theorem Reg.run_ok {lower : String → String} (hl : Lower lower) : ∀ (ops : List RegOp) {g : Reg}, g.Ok lower →
    g.names.length + ops.length ≤ 2 ^ 16 → (g.run lower ops).Ok lower
  | [], g, h, _ => h
  | op :: ops, g, h, hn => by
    have h1 := Reg.step_names (lower := lower) g op
    simp only [List.length_cons] at hn
    exact Reg.run_ok hl ops (Reg.step_ok hl h op (by omega)) (by omega)

/-! ### What follows -/

/-- The sheets of a registry that has come about by a history. -/
def Reached (lower : String → String) (g : Reg) : Prop := ∃ ops : List RegOp, ops.length ≤ 2 ^ 16 ∧ g = Reg.new.run lower ops

theorem Reached.ok {lower : String → String} (hl : Lower lower) {g : Reg} (h : Reached lower g) : g.Ok lower := by
  obtain ⟨ops, hn, rfl⟩ := h
  exact Reg.run_ok hl ops (Reg.new_ok lower) (by simpa [Reg.new] using hn)

/-- A sheet is found under its name, in any case, and only under its name. -/
theorem getId_iff {lower : String → String} (hl : Lower lower) {g : Reg} (h : Reached lower g) {s : String} (hs : s ≠ "") (id : Nat) :
    g.getId lower s = some id ↔ g.name id ≠ "" ∧ lower (g.name id) = lower s := by
  have ok := h.ok hl
  unfold Reg.getId Reg.name
  constructor
  · intro hg
    obtain ⟨n, h1, h2⟩ := ok.found _ _ hg
    rw [h1, Option.getD_some]
    refine ⟨?_, h2⟩
    rintro rfl
    rw [(hl "").2 rfl] at h2
    exact hs ((hl s).1 h2.symm)
  · rintro ⟨h1, h2⟩
    cases hn : g.names[id]? with
    | none => rw [hn] at h1; exact absurd rfl h1
    | some n =>
      rw [hn, Option.getD_some] at h1 h2
      rw [← h2]
      exact ok.finds id n hn h1

/-- No two sheets have the same name, whatever the case. -/
theorem names_differ {lower : String → String} (hl : Lower lower) {g : Reg} (h : Reached lower g) {i j : Nat} (hi : g.name i ≠ "")
    (hij : lower (g.name i) = lower (g.name j)) : i = j := by
  have hj : g.name j ≠ "" := fun e => by rw [e, (hl "").2 rfl] at hij; exact hi ((hl _).1 hij)
  have h1 := (getId_iff hl h hi i).2 ⟨hi, rfl⟩
  have h2 := (getId_iff hl h hi j).2 ⟨hj, hij.symm⟩
  rw [h1] at h2
  exact Option.some.inj h2

/-- A new sheet gets a number that no sheet has or had. -/
theorem new_sheet_fresh {lower : String → String} {g : Reg} {s : String} (hs : g.getId lower s = none) (hn : g.names.length < 2 ^ 16) :
    (g.idFor lower s).2 = g.names.length ∧ (g.idFor lower s).1.name (g.idFor lower s).2 = s ∧
      ∀ i, i < g.names.length → (g.idFor lower s).1.name i = g.name i := by
  unfold Reg.getId at hs
  unfold Reg.idFor Reg.name
  rw [hs]
  dsimp only
  rw [Nat.mod_eq_of_lt hn]
  refine ⟨rfl, by rw [last_get]; rfl, fun i hi => by rw [List.getElem?_append_left hi]⟩

/-- The other sheets keep their names when one is removed or renamed, and this one has the new name afterwards. -/
theorem rename_only {lower : String → String} {g g' : Reg} {id : Nat} {new : String} (h : g.rename lower id new = some g') :
    g'.name id = new ∧ ∀ j, j ≠ id → g'.name j = g.name j := by
  unfold Reg.rename at h
  split at h
  · cases h
  · next old hn =>
    split at h
    · cases h
    · cases h
      unfold Reg.name
      exact ⟨by rw [List.getElem?_set_self (get_lt hn)]; rfl, fun j hj => by rw [List.getElem?_set_ne (Ne.symm hj)]⟩

theorem remove_only {lower : String → String} {g g' : Reg} {id : Nat} (h : g.remove lower id = some g') :
    g'.name id = "" ∧ ∀ j, j ≠ id → g'.name j = g.name j := by
  unfold Reg.remove at h
  split at h
  · cases h
  · next old hn =>
    split at h
    · next e => cases h; exact ⟨by unfold Reg.name; rw [hn, e]; rfl, fun _ _ => rfl⟩
    · cases h
      unfold Reg.name
      exact ⟨by rw [List.getElem?_set_self (get_lt hn)]; rfl, fun j hj => by rw [List.getElem?_set_ne (Ne.symm hj)]⟩

/-- A renaming is refused exactly if there is no such number, or another sheet has the name. -/
theorem rename_refused {lower : String → String} (hl : Lower lower) {g : Reg} (h : Reached lower g) {id : Nat} {new : String} (hne : new ≠ "") :
    g.rename lower id new = none ↔ g.names.length ≤ id ∨ ∃ j, j ≠ id ∧ g.name j ≠ "" ∧ lower (g.name j) = lower new := by
  unfold Reg.rename
  cases hn : g.names[id]? with
  | none => simpa using Or.inl (List.getElem?_eq_none_iff.1 hn)
  | some old =>
    have hlt := get_lt hn
    dsimp only
    cases hg : g.ids (lower new) with
    | none =>
      simp only [Option.any_none, Bool.false_eq_true, if_false, reduceCtorEq, false_iff, not_or, not_exists]
      refine ⟨by omega, fun j hj => ?_⟩
      have := (getId_iff hl h hne j).2 hj.2
      unfold Reg.getId at this
      rw [hg] at this
      cases this
    | some j =>
      have hj := (getId_iff hl h hne j).1 hg
      by_cases e : j = id
      · subst e
        simp only [Option.any_some, ne_eq, not_true_eq_false, decide_false, Bool.false_eq_true, if_false, reduceCtorEq, false_iff, not_or,
          not_exists]
        refine ⟨by omega, fun k hk => ?_⟩
        have := (getId_iff hl h hne k).2 hk.2
        unfold Reg.getId at this
        rw [hg] at this
        exact hk.1 (Option.some.inj this).symm
      · simp only [Option.any_some, ne_eq, e, not_false_eq_true, decide_true, if_true, true_iff]
        exact Or.inr ⟨j, e, hj⟩

/-- The 65537th sheet gets a number that is taken, and another name for the sheet that has it is not set. -/
theorem too_many_sheets {lower : String → String} {g : Reg} {s : String} (hs : g.getId lower s = none) (hn : 2 ^ 16 ≤ g.names.length) :
    (g.idFor lower s).2 < g.names.length ∧ (g.idFor lower s).1.getId lower s = some (g.idFor lower s).2 ∧
      (g.idFor lower s).1.name (g.idFor lower s).2 = g.name (g.idFor lower s).2 := by
  unfold Reg.getId at hs
  have hlt : g.names.length % 2 ^ 16 < g.names.length := Nat.lt_of_lt_of_le (Nat.mod_lt _ (by decide)) hn
  unfold Reg.idFor Reg.name Reg.getId
  rw [hs]
  dsimp only
  exact ⟨hlt, by rw [if_pos rfl], by rw [List.getElem?_append_left hlt]⟩

/-- Renaming a sheet that has been removed brings it back. -/
theorem rename_revives {lower : String → String} {g g' : Reg} {id : Nat} {new : String} (hg : id < g.names.length)
    (hr : g.remove lower id = some g') (hf : g'.getId lower new = none) : ∃ g'', g'.rename lower id new = some g'' ∧ g''.name id = new := by
  have hlen : g'.names.length = g.names.length := by
    unfold Reg.remove at hr
    split at hr
    · cases hr
    · split at hr <;> cases hr
      · rfl
      · simp
  cases h : g'.rename lower id new with
  | some g'' => exact ⟨g'', rfl, (rename_only h).1⟩
  | none =>
    unfold Reg.rename at h
    unfold Reg.getId at hf
    rw [List.getElem?_eq_getElem (by omega), hf] at h
    simp at h

end Verif.Arena
